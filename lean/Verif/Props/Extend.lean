import Verif.Props.Constraints

/-!
# C101: offsets and extended fields, and C100 for unions and choices

The grammar has `offset:` and `extend` in fields of structures, and constraints in fields of unions and choices.  The syntax tree has none of them.
-/

namespace Verif

/-! ## The schema without them -/

/-- A field of a structure without offset and `extend`. -/
def CField.bare (f : CField) : CField := { f with offset := none, extend := false }

/-- A declaration without offsets and `extend`. -/
def CDirective.bare : CDirective → CDirective
  | .structure h cs gs => .structure h (cs.map CField.bare) gs
  | d => d

/-- A schema without offsets and `extend`. -/
def CPackage.bare (p : CPackage) : CPackage := { p with directives := p.directives.map CDirective.bare }

/-- A field of a union or choice without its constraint. -/
def CChoiceField.lax (f : CChoiceField) : CChoiceField := { f with constraint := none }

/-- A declaration without the constraints of unions and choices. -/
def CDirective.lax : CDirective → CDirective
  | .choice h e cs d gs => .choice h e (cs.map fun c => { c with field := c.field.map CChoiceField.lax }) (d.map fun f => f.map CChoiceField.lax) gs
  | .union h cs gs => .union h (cs.map CChoiceField.lax) gs
  | d => d

/-- A schema without the constraints of unions and choices. -/
def CPackage.lax (p : CPackage) : CPackage := { p with directives := p.directives.map CDirective.lax }

theorem visitAll_after {α β : Type} (f : α → Option β) (g : α → α) (h : ∀ a, f (g a) = f a) (as : List α) : visitAll f (as.map g) = visitAll f as := by
  induction as with
  | nil => rfl
  | cons a as ih => simp only [List.map_cons, visitAll, h, ih]

theorem visitDirective_bare (d : CDirective) : visitDirective d.bare = visitDirective d := by
  cases d with
  | «structure» h cs gs =>
    simp only [CDirective.bare, visitDirective]
    rw [visitAll_after visitField CField.bare fun _ => rfl]
  | _ => rfl

theorem visitOptionField_lax (f : Option CChoiceField) : visitOptionField (f.map CChoiceField.lax) = visitOptionField f := by
  cases f <;> rfl

theorem visitDirective_lax (d : CDirective) : visitDirective d.lax = visitDirective d := by
  cases d with
  | choice h e cs d gs =>
    have hd : visitChoiceDefault (d.map fun f => f.map CChoiceField.lax) = visitChoiceDefault d := by
      cases d with
      | none => rfl
      | some f => simp only [Option.map_some, visitChoiceDefault, visitOptionField_lax]
    simp only [CDirective.lax, visitDirective, hd]
    rw [visitAll_after visitChoiceCases _ fun c => by simp only [visitChoiceCases, visitOptionField_lax]]
  | union h cs gs =>
    simp only [CDirective.lax, visitDirective]
    rw [visitAll_after visitChoiceField CChoiceField.lax fun _ => rfl]
  | _ => rfl

theorem visitDirectives_after (g : CDirective → CDirective) (h : ∀ d, visitDirective (g d) = visitDirective d) (ds : List CDirective) :
    ∀ decls, visitDirectives decls (ds.map g) = visitDirectives decls ds := by
  induction ds with
  | nil => exact fun _ => rfl
  | cons d ds ih =>
    intro decls
    simp only [List.map_cons, visitDirectives, h, ih]

/-- What is generated from a text, from the schema that is read. -/
theorem compileText_of {p : CPackage} {s : List Char} (h : TextOf p s) : compileText s = (loadPackages [] [p]).bind fun ps => (resolveModel ps).bind fun ps =>
    ps.head?.bind packageCode := by
  obtain ⟨⟨ps, rfl, h1, h2, h3⟩, h4⟩ := h
  obtain ⟨ts, e1, e2⟩ := Option.bind_eq_some_iff.1 (C85_text_partial h4 h1 h2 h3)
  unfold compileText
  rw [e1]
  simp only [bind, Option.bind_some, e2]

theorem compileText_after (g : CDirective → CDirective) (h : ∀ d, visitDirective (g d) = visitDirective d) {p : CPackage} {s s' : List Char}
    (ht : TextOf p s) (ht' : TextOf { p with directives := p.directives.map g } s') : compileText s = compileText s' := by
  rw [compileText_of ht, compileText_of ht']
  simp only [loadPackages, visitPackage, visitDirectives_after g h]

/-- **C101**: offsets and `extend` make no difference: what is generated from a schema, if anything is, is what is generated from the schema without them.

This is what the generator does instead of what the property asks for, see `C101_violated_extend` and `C101_violated_offset`.
Missing: texts that are read in another way than they are written (C85), and several files. -/
theorem C101_ignored_partial {p : CPackage} {s s' : List Char} (ht : TextOf p s) (ht' : TextOf p.bare s') : compileText s = compileText s' :=
  compileText_after _ visitDirective_bare ht ht'

/-- **C100** for unions and choices: their constraints are not even evaluated.  What is generated is what is generated from the schema without them.

Missing: as above. -/
theorem C100_members_partial {p : CPackage} {s s' : List Char} (ht : TextOf p s) (ht' : TextOf p.lax s') : compileText s = compileText s' :=
  compileText_after _ visitDirective_lax ht ht'

/-- A constraint that names nothing is accepted in a union. -/
example : (compileText "package p; union U { uint8 a : x; };".toList).isSome = true ∧ (compileText "package p; struct S { uint8 a : x; };".toList).isSome = false := by
  decide +kernel

/-! ## A case -/

/-- `uint8 n; n: extend uint8 a;` -/
def exAtFields : List CField := [exField (.builtin (.word .uint8)) (exIdent 'n'),
  { exField (.builtin (.word .uint8)) (exIdent 'a') with offset := some (exRef 'n'), extend := true }]

/-- `package p; struct S { uint8 n; n: extend uint8 a; };` -/
def exAt : CPackage := ⟨none, some (exIdent 'p', []), [], [.structure ⟨exIdent 'S', [], []⟩ exAtFields []]⟩

/-- Its tokens. -/
def exAtTokens : List Token := List.flatten
  [[.keyword .package, .id (exIdent 'p'), .sym .semicolon, .keyword .struct, .id (exIdent 'S'), .sym .lbrace],
    CTypeRef.tokens (.builtin (.word .uint8)), [.id (exIdent 'n'), .sym .semicolon, .id (exIdent 'n'), .sym .colon, .keyword .extend],
    CTypeRef.tokens (.builtin (.word .uint8)), [.id (exIdent 'a'), .sym .semicolon, .sym .rbrace, .sym .semicolon]]

/-- The tokens without offset and `extend`. -/
def exAtBare : List Token := List.flatten
  [[.keyword .package, .id (exIdent 'p'), .sym .semicolon, .keyword .struct, .id (exIdent 'S'), .sym .lbrace],
    CTypeRef.tokens (.builtin (.word .uint8)), [.id (exIdent 'n'), .sym .semicolon],
    CTypeRef.tokens (.builtin (.word .uint8)), [.id (exIdent 'a'), .sym .semicolon, .sym .rbrace, .sym .semicolon]]

theorem exAt_text : TextOf exAt (piecesText (spaced exAtTokens)) := by
  have h : PackageWritten exAt exAtTokens := ⟨_, .cons (.structure _ _ _) .nil, by decide +kernel⟩
  have hf := spaced_fits (ts := exAtTokens) fun t ht => fineToken_proper ((List.all_eq_true (p := fineToken)).1 (by decide +kernel) t ht)
  refine ⟨⟨_, rfl, hf.1, hf.2.1, by rw [hf.2.2]; exact h⟩, fun d hd => ?_⟩
  simp only [exAt, List.mem_cons, List.not_mem_nil, or_false] at hd
  subst hd
  refine ⟨fun f hf => ?_, by simp⟩
  simp only [exAtFields, List.mem_cons, List.not_mem_nil, or_false] at hf
  rcases hf with rfl | rfl
  · refine ⟨?_, trivial, ?_, ?_, ?_, ?_, fun _ => C85_plain (by simp [CField.Plain, exField])⟩
    all_goals simp [CFieldTypeId.Readable, CTypeInst.Readable, OptGrouped, exField]
  · refine ⟨?_, trivial, ?_, ?_, ?_, ?_, fun h => ?_⟩
    all_goals simp [CFieldTypeId.Readable, CTypeInst.Readable, OptGrouped, exField, exRef] at *

theorem exAt_bareText : TextOf exAt.bare (piecesText (spaced exAtBare)) := by
  have h : PackageWritten exAt.bare exAtBare := ⟨_, .cons (.structure _ _ _) .nil, by decide +kernel⟩
  have hf := spaced_fits (ts := exAtBare) fun t ht => fineToken_proper ((List.all_eq_true (p := fineToken)).1 (by decide +kernel) t ht)
  refine ⟨⟨_, rfl, hf.1, hf.2.1, by rw [hf.2.2]; exact h⟩, fun d hd => ?_⟩
  simp only [CPackage.bare, exAt, List.map_cons, List.map_nil, CDirective.bare, List.mem_cons, List.not_mem_nil, or_false] at hd
  subst hd
  refine ⟨fun f hf => ?_, by simp⟩
  simp only [exAtFields, List.map_cons, List.map_nil, List.mem_cons, List.not_mem_nil, or_false] at hf
  rcases hf with rfl | rfl
  all_goals
    refine ⟨?_, trivial, ?_, ?_, ?_, ?_, fun _ => C85_plain (by simp [CField.Plain, CField.bare, exField])⟩
    all_goals simp [CFieldTypeId.Readable, CTypeInst.Readable, OptGrouped, CField.bare, exField]

/-- The texts: one has an offset and `extend`. -/
example : piecesText (spaced exAtTokens) = "package p ; struct S { uint8 n ; n : extend uint8 a ; } ; ".toList ∧
    piecesText (spaced exAtBare) = "package p ; struct S { uint8 n ; uint8 a ; } ; ".toList := by
  decide +kernel

example : compileText (piecesText (spaced exAtTokens)) = compileText (piecesText (spaced exAtBare)) ∧ (compileText (piecesText (spaced exAtTokens))).isSome = true :=
  ⟨C101_ignored_partial exAt_text exAt_bareText, by decide +kernel⟩

/-- `package p; union U { uint8 a : 1; };` -/
def exLax : CPackage := ⟨none, some (exIdent 'p', []), [], [.union ⟨exIdent 'U', [], []⟩ [⟨⟨false, false, ⟨.builtin (.word .uint8), .none⟩, exIdent 'a', none⟩, some (.literal .decimal ['1'])⟩] []]⟩

/-- Its tokens, with or without the constraint. -/
def exLaxTokens (c : List Token) : List Token := List.flatten
  [[.keyword .package, .id (exIdent 'p'), .sym .semicolon, .keyword .union, .id (exIdent 'U'), .sym .lbrace],
    CTypeRef.tokens (.builtin (.word .uint8)), [.id (exIdent 'a')], c, [.sym .semicolon, .sym .rbrace, .sym .semicolon]]

theorem exLax_text : TextOf exLax (piecesText (spaced (exLaxTokens [.sym .colon, .literal .decimal ['1']]))) := by
  have h : PackageWritten exLax (exLaxTokens [.sym .colon, .literal .decimal ['1']]) := ⟨_, .cons (.union _ _ _) .nil, by decide +kernel⟩
  have hf := spaced_fits (ts := exLaxTokens [.sym .colon, .literal .decimal ['1']]) fun t ht => fineToken_proper ((List.all_eq_true (p := fineToken)).1 (by decide +kernel) t ht)
  refine ⟨⟨_, rfl, hf.1, hf.2.1, by rw [hf.2.2]; exact h⟩, fun d hd => ?_⟩
  simp only [exLax, List.mem_cons, List.not_mem_nil, or_false] at hd
  subst hd
  simp [CDirective.Readable, CChoiceField.Readable, CFieldTypeId.Readable, CTypeInst.Readable, OptGrouped, CExpr.Grouped]

theorem exLax_laxText : TextOf exLax.lax (piecesText (spaced (exLaxTokens []))) := by
  have h : PackageWritten exLax.lax (exLaxTokens []) := ⟨_, .cons (.union _ _ _) .nil, by decide +kernel⟩
  have hf := spaced_fits (ts := exLaxTokens []) fun t ht => fineToken_proper ((List.all_eq_true (p := fineToken)).1 (by decide +kernel) t ht)
  refine ⟨⟨_, rfl, hf.1, hf.2.1, by rw [hf.2.2]; exact h⟩, fun d hd => ?_⟩
  simp only [CPackage.lax, exLax, List.map_cons, List.map_nil, CDirective.lax, List.mem_cons, List.not_mem_nil, or_false] at hd
  subst hd
  simp [CDirective.Readable, CChoiceField.Readable, CFieldTypeId.Readable, CTypeInst.Readable, OptGrouped, CChoiceField.lax]

example : compileText (piecesText (spaced (exLaxTokens [.sym .colon, .literal .decimal ['1']]))) = compileText (piecesText (spaced (exLaxTokens []))) :=
  C100_members_partial exLax_text exLax_laxText

/-! ## Witnesses -/

theorem compiled {s : List Char} {Q : List Decl → Prop} [∀ code, Decidable (Q code)] (h : ((compileText s).any fun code => decide (Q code)) = true) :
    ∃ code, compileText s = some code ∧ Q code := by
  cases hc : compileText s with
  | none => rw [hc] at h; cases h
  | some code => rw [hc] at h; exact ⟨code, rfl, of_decide_eq_true h⟩

/-- An error was reported. -/
def failed {α : Type} : Except Err α → Bool
  | .ok _ => false
  | .error _ => true

theorem failed_iff {α : Type} {r : Except Err α} (h : failed r = true) : ∃ e, r = .error e := by
  cases r with
  | ok a => cases h
  | error e => exact ⟨e, rfl⟩

/-- **C101**: bits that were written before `extend uint8 b;` was added to a schema cannot be read with the new one. -/
theorem C101_violated_extend : ∃ old new, compileText "package p; struct S { uint8 a; };".toList = some old ∧
    compileText "package p; struct S { uint8 a; extend uint8 b; };".toList = some new ∧
    wrun ((methods (byNumber old) 1 0).marshal (.obj 0 [] [.bits 8 7#8])) [] = (.ok (), Wire.msb 8 7) ∧
    ∃ e, (rrun ((methods (byNumber new) 1 0).unmarshal (methods (byNumber new) 1 0).zero) ⟨Wire.msb 8 7, 0⟩).1 = .error e := by
  obtain ⟨old, h1, h2⟩ := compiled (s := "package p; struct S { uint8 a; };".toList)
    (Q := fun old => wrun ((methods (byNumber old) 1 0).marshal (.obj 0 [] [.bits 8 7#8])) [] = (.ok (), Wire.msb 8 7)) (by decide +kernel)
  obtain ⟨new, h3, h4⟩ := compiled (s := "package p; struct S { uint8 a; extend uint8 b; };".toList)
    (Q := fun new => failed (rrun ((methods (byNumber new) 1 0).unmarshal (methods (byNumber new) 1 0).zero) ⟨Wire.msb 8 7, 0⟩).1 = true) (by decide +kernel)
  exact ⟨old, new, h1, h3, h2, failed_iff h4⟩

/-- **C101**: offsets are not checked: `{n: 77, a: 5}` of `struct S { uint32 n; n: uint8 a; };` is encoded and decoded without error, although `a` begins
at byte 4. -/
theorem C101_violated_offset : ∃ code, compileText "package p; struct S { uint32 n; n: uint8 a; };".toList = some code ∧ (Wire.msb 32 77).length = 8 * 4 ∧
    wrun ((methods (byNumber code) 1 0).marshal (.obj 0 [] [.bits 32 77#32, .bits 8 5#8])) [] = (.ok (), Wire.msb 32 77 ++ Wire.msb 8 5) ∧
    (rrun ((methods (byNumber code) 1 0).unmarshal (methods (byNumber code) 1 0).zero) ⟨Wire.msb 32 77 ++ Wire.msb 8 5, 0⟩).1 =
      .ok (.obj 0 [] [.bits 32 77#32, .bits 8 5#8]) := by
  obtain ⟨code, h1, h2, h3⟩ := compiled (s := "package p; struct S { uint32 n; n: uint8 a; };".toList)
    (Q := fun code => wrun ((methods (byNumber code) 1 0).marshal (.obj 0 [] [.bits 32 77#32, .bits 8 5#8])) [] = (.ok (), Wire.msb 32 77 ++ Wire.msb 8 5) ∧
      ((rrun ((methods (byNumber code) 1 0).unmarshal (methods (byNumber code) 1 0).zero) ⟨Wire.msb 32 77 ++ Wire.msb 8 5, 0⟩).1.toOption.any
        fun v => v.beq (.obj 0 [] [.bits 32 77#32, .bits 8 5#8])) = true) (by decide +kernel)
  refine ⟨code, h1, by decide, h2, Val.ok_of_beq ?_⟩
  revert h3
  cases (rrun ((methods (byNumber code) 1 0).unmarshal (methods (byNumber code) 1 0).zero) ⟨Wire.msb 32 77 ++ Wire.msb 8 5, 0⟩).1 with
  | ok v => exact id
  | error e => exact id

end Verif
