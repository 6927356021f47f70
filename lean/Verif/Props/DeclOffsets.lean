import Verif.Props.DeclReads

/-!
# Fields that cannot be taken for fields with an offset (for C85)

`T name : e;` begins like `offset : U field;`.  Most fields cannot be read in both ways: here are conditions that are easy to check.
-/

namespace Verif

/-- A field that is no field with an offset: it begins with a keyword, or its type is a name without template arguments, or there is
nothing behind a colon, or there is an initializer or a condition before the colon. -/
def CField.Plain (f : CField) : Prop :=
  f.extend = true ∨ f.optional = true ∨ f.typeId.packed = true ∨ f.typeId.implicit = true ∨ (∃ b, f.typeId.type.type = .builtin b) ∨
    ((∃ first rest, f.typeId.type.type = .named first rest []) ∧ ∀ e, f.typeId.type.args ≠ .dynamicLength e) ∨
    f.constraint = none ∨ f.initializer ≠ none ∨ f.optionalClause ≠ none

/-! ## Nothing behind a colon -/

/-- Tokens that leave the brackets as they are, or have a keyword that cannot be in an expression. -/
def Safe (ts : List Token) : Prop := ∀ s, scanBrackets s ts = .ok s ∨ ∃ k, scanBrackets s ts = .error (.keyword k)

theorem Safe.append {a b : List Token} (ha : Safe a) (hb : Safe b) : Safe (a ++ b) := by
  intro s
  rw [scan_append]
  rcases ha s with h | ⟨k, h⟩
  · rw [h]; exact hb s
  · rw [h]; exact Or.inr ⟨k, rfl⟩

theorem Safe.cons {t : Token} {b : List Token} (ha : Safe [t]) (hb : Safe b) : Safe (t :: b) := Safe.append ha hb

theorem safe_nil : Safe [] := fun _ => Or.inl rfl

theorem safe_expr (e : CExpr) : Safe e.tokens := fun s => Or.inl (scan_tokens e s)

theorem safe_id (n : Ident) : Safe [.id n] := fun _ => Or.inl rfl

theorem safe_plain {t : Token} (h : ∀ s, bracketStep s t = some s) : Safe [t] := by
  exact fun s => Or.inl (by simp only [scanBrackets, h])

theorem safe_keyword (k : Keyword) (r : List Token) (h : ∀ s, bracketStep s (.keyword k) = none) : Safe (.keyword k :: r) := by
  intro s
  simp only [scanBrackets, h]
  exact Or.inr ⟨k, rfl⟩

theorem safe_flag (k : Keyword) (b : Bool) (h : ∀ s, bracketStep s (.keyword k) = none) : Safe (flagTokens k b) := by
  cases b
  · exact safe_nil
  · exact safe_keyword k [] h

theorem safe_dots (ns : List Ident) : Safe (dotTokens ns) := by
  induction ns with
  | nil => exact safe_nil
  | cons n ns ih => exact Safe.cons (safe_plain fun _ => rfl) (Safe.cons (safe_id n) ih)

theorem builtinWord_step (w : BuiltinWord) (s : List Punct) : bracketStep s (.keyword w.keyword) = none := by
  cases w <;> rfl

theorem safe_builtin (b : CBuiltin) : Safe b.tokens := by
  cases b with
  | word w => exact safe_keyword _ _ (builtinWord_step w)
  | fixed signed width => cases signed <;> exact safe_keyword _ _ fun _ => rfl

mutual
theorem safe_type : (t : CTypeRef) → Safe t.tokens
  | .builtin b => by rw [CTypeRef.tokens]; exact safe_builtin b
  | .named first rest [] => by rw [CTypeRef.tokens]; exact Safe.cons (safe_id first) (safe_dots rest)
  | .named first rest (t :: ts) => by
    rw [CTypeRef.tokens]
    exact Safe.cons (safe_id first) ((safe_dots rest).append (Safe.cons (safe_plain fun _ => rfl) ((safe_type t).append
      ((safe_moreTypes ts).append (safe_plain fun _ => rfl)))))

theorem safe_moreTypes : (ts : List CTypeRef) → Safe (moreTypeTokens ts)
  | [] => by rw [moreTypeTokens]; exact safe_nil
  | t :: ts => by
    rw [moreTypeTokens]
    exact Safe.cons (safe_plain fun _ => rfl) ((safe_type t).append (safe_moreTypes ts))
end

theorem safe_typeArg (a : CTypeArg) : Safe a.tokens := by
  cases a with
  | explicit n => exact safe_keyword _ _ fun _ => rfl
  | expression e => exact safe_expr e

theorem safe_commas {α : Type} {tok : α → List Token} (h : ∀ a, Safe (tok a)) (as : List α) : Safe (afterCommas tok as) := by
  induction as with
  | nil => exact safe_nil
  | cons a as ih => exact Safe.cons (safe_plain fun _ => rfl) ((h a).append ih)

/-- Something in round or square brackets. -/
theorem safe_brackets {ts : List Token} (h : Safe ts) {a b : Punct}
    (hab : (a = .lparen ∧ b = .rparen) ∨ (a = .lbracket ∧ b = .rbracket)) : Safe (.sym a :: (ts ++ [.sym b])) := by
  intro s
  rcases hab with ⟨rfl, rfl⟩ | ⟨rfl, rfl⟩
  · rcases h (.rparen :: s) with h | ⟨k, h⟩
    · exact Or.inl (by simp [scanBrackets, bracketStep, scan_append, h, Except.bind, popBracket])
    · exact Or.inr ⟨k, by simp [scanBrackets, bracketStep, scan_append, h, Except.bind]⟩
  · rcases h (.rbracket :: s) with h | ⟨k, h⟩
    · exact Or.inl (by simp [scanBrackets, bracketStep, scan_append, h, Except.bind, popBracket])
    · exact Or.inr ⟨k, by simp [scanBrackets, bracketStep, scan_append, h, Except.bind]⟩

theorem safe_args (a : CArgs) : Safe a.tokens := by
  cases a with
  | none => exact safe_nil
  | typeArgs first rest =>
    have := safe_brackets (a := .lparen) (b := .rparen) ((safe_typeArg first).append (safe_commas safe_typeArg rest)) (Or.inl ⟨rfl, rfl⟩)
    simpa [CArgs.tokens] using this
  | dynamicLength e => exact Safe.cons (safe_plain fun _ => rfl) ((safe_expr e).append (safe_plain fun _ => rfl))

theorem safe_range (a : Option (Option CExpr)) : Safe (rangeTokens a) := by
  match a with
  | none => exact safe_nil
  | some none => exact safe_brackets (ts := []) safe_nil (Or.inr ⟨rfl, rfl⟩)
  | some (some e) => exact safe_brackets (safe_expr e) (Or.inr ⟨rfl, rfl⟩)

theorem safe_typeId (f : CFieldTypeId) : Safe f.tokens :=
  (safe_flag _ _ fun _ => rfl).append ((safe_flag _ _ fun _ => rfl).append (((safe_type _).append (safe_args _)).append
    (Safe.cons (safe_id _) (safe_range _))))

/-- An expression and a colon cannot end inside of safe tokens, and not behind them if something else stops the expression. -/
theorem safe_no_colon {pre r : List Token} (h : Safe pre) {t : Token} (hs : bracketStep [] t = none) (ht : t ≠ .sym .colon)
    (e : CExpr) (g : List Token) : pre ++ t :: r ≠ e.tokens ++ .sym .colon :: g := by
  intro he
  have h1 : scanBrackets [] (e.tokens ++ .sym .colon :: g) = .error (.sym .colon) := by
    rw [scan_append, scan_tokens]; rfl
  rw [← he, scan_append] at h1
  rcases h [] with h2 | ⟨k, h2⟩
  · rw [h2] at h1
    simp only [Except.bind, scanBrackets, hs, Except.error.injEq] at h1
    exact ht h1
  · rw [h2] at h1
    cases h1

/-! ## A name without template arguments -/

/-- What was before, as far as it matters for which token can come next: an identifier, an identifier and `(`, something else. -/
inductive Before where
  | other
  | afterId
  | afterOpen

/-- In an expression, there is no identifier right behind an identifier, and there are no arguments behind a name and `(`. -/
def beforeStep : Before → Token → Option Before
  | .afterOpen, .sym .rparen => some .other
  | .afterOpen, _ => none
  | .afterId, .id _ => none
  | .other, .id _ => some .afterId
  | .afterId, .sym .lparen => some .afterOpen
  | _, _ => some .other

/-- Reads tokens up to a place that cannot be in an expression. -/
def scanBefore : Before → List Token → Option Before
  | b, [] => some b
  | b, t :: ts => (beforeStep b t).bind fun b' => scanBefore b' ts

theorem scanBefore_append (a c : List Token) (b : Before) :
    scanBefore b (a ++ c) = (scanBefore b a).bind fun b' => scanBefore b' c := by
  induction a generalizing b with
  | nil => rfl
  | cons t ts ih =>
    simp only [List.cons_append, scanBefore]
    cases beforeStep b t with
    | none => rfl
    | some b' => exact ih b'

theorem scanBefore_tokens (e : CExpr) : scanBefore .other e.tokens = some .other ∨ scanBefore .other e.tokens = some .afterId := by
  induction e with
  | unary op e ih => cases op <;> rcases ih with ih | ih <;> simp [CExpr.tokens, scanBefore, beforeStep, UnaryOp.sym, ih]
  | multiplicative op a b iha ihb =>
    cases op <;> rcases iha with iha | iha <;> rcases ihb with ihb | ihb <;>
      simp [CExpr.tokens, scanBefore_append, scanBefore, beforeStep, MulOp.sym, iha, ihb]
  | additive op a b iha ihb =>
    cases op <;> rcases iha with iha | iha <;> rcases ihb with ihb | ihb <;>
      simp [CExpr.tokens, scanBefore_append, scanBefore, beforeStep, AddOp.sym, iha, ihb]
  | shift op a b iha ihb =>
    cases op <;> rcases iha with iha | iha <;> rcases ihb with ihb | ihb <;>
      simp [CExpr.tokens, scanBefore_append, scanBefore, beforeStep, ShiftOp.syms, iha, ihb]
  | relational op a b iha ihb =>
    cases op <;> rcases iha with iha | iha <;> rcases ihb with ihb | ihb <;>
      simp [CExpr.tokens, scanBefore_append, scanBefore, beforeStep, RelOp.sym, iha, ihb]
  | equality op a b iha ihb =>
    cases op <;> rcases iha with iha | iha <;> rcases ihb with ihb | ihb <;>
      simp [CExpr.tokens, scanBefore_append, scanBefore, beforeStep, EqOp.sym, iha, ihb]
  | ternary a b c iha ihb ihc =>
    rcases iha with iha | iha <;> rcases ihb with ihb | ihb <;> rcases ihc with ihc | ihc <;>
      simp [CExpr.tokens, scanBefore_append, scanBefore, beforeStep, iha, ihb, ihc]
  | _ =>
    first
    | (rename_i iha ihb
       rcases iha with iha | iha <;> rcases ihb with ihb | ihb <;>
         simp [CExpr.tokens, scanBefore_append, scanBefore, beforeStep, iha, ihb])
    | (rename_i ih
       rcases ih with ih | ih <;> simp [CExpr.tokens, scanBefore_append, scanBefore, beforeStep, ih])
    | simp [CExpr.tokens, scanBefore, beforeStep]

/-- No expression and colon, if something that is no part of an expression comes before the first colon. -/
theorem before_no_colon {p : List Token} (h : scanBefore .other p = none) (hc : Token.sym .colon ∉ p) (e : CExpr) (r g : List Token) :
    p ++ r ≠ e.tokens ++ .sym .colon :: g := by
  intro he
  have bad : ∀ x, e.tokens ≠ p ++ x := by
    intro x hx
    have := scanBefore_tokens e
    rw [hx, scanBefore_append, h] at this
    rcases this with h | h <;> cases h
  rcases List.append_eq_append_iff.1 he with ⟨x, hx, -⟩ | ⟨x, hx, hy⟩
  · exact bad x hx
  · cases x with
    | nil => exact bad [] (by rw [hx]; simp)
    | cons t ts =>
      simp only [List.cons_append, List.cons.injEq] at hy
      rw [hx, ← hy.1] at hc
      simp at hc

theorem scanBefore_dots (ns : List Ident) : scanBefore .afterId (dotTokens ns) = some .afterId := by
  induction ns with
  | nil => rfl
  | cons n ns ih => exact ih

theorem dots_no_colon (ns : List Ident) : Token.sym .colon ∉ dotTokens ns := by
  simp [dotTokens]

/-- The first token of an argument is no closing bracket and no colon. -/
theorem typeArg_head (a : CTypeArg) : ∃ t ts, a.tokens = t :: ts ∧ t ≠ .sym .rparen ∧ t ≠ .sym .colon := by
  cases a with
  | explicit n => exact ⟨_, _, rfl, by simp, by simp⟩
  | expression e =>
    obtain ⟨t, ts, h1, h2, -⟩ := tokens_head e
    refine ⟨t, ts, h1, h2, ?_⟩
    rintro rfl
    have h0 := scan_tokens e []
    rw [h1] at h0
    cases h0

theorem afterOpen_none {t : Token} (h : t ≠ .sym .rparen) : beforeStep .afterOpen t = none := by
  unfold beforeStep
  split
  · exact absurd rfl h
  all_goals first | rfl | contradiction

/-- **C85** (for all fields): a plain field is not taken for a field with an offset. -/
theorem plain_no_offset {f : CField} (hf : f.Plain) (e : CExpr) (g : CField) : f.bodyTokens ≠ e.tokens ++ .sym .colon :: g.bodyTokens := by
  have key : ∀ (k : Keyword) (r : List Token), (∀ s, bracketStep s (.keyword k) = none) →
      Token.keyword k :: r ≠ e.tokens ++ .sym .colon :: g.bodyTokens :=
    fun k r hk => safe_no_colon (pre := []) safe_nil (hk []) (by simp) e g.bodyTokens
  rcases f with ⟨al, off, ext, opt, ⟨packed, impl, ⟨type, args⟩, name, array⟩, init, cond, constr⟩
  cases ext
  case true => exact key .extend _ fun _ => rfl
  cases opt
  case true => exact key .optional _ fun _ => rfl
  cases packed
  case true => exact key .packed _ fun _ => rfl
  cases impl
  case true => exact key .implicit _ fun _ => rfl
  have front : Safe (CFieldTypeId.tokens ⟨false, false, ⟨type, args⟩, name, array⟩) := safe_typeId _
  cases init with
  | some i => exact safe_no_colon front (t := .sym .assign) rfl (by simp) e g.bodyTokens
  | none =>
    cases cond with
    | some c => exact safe_no_colon front (t := .keyword .if) rfl (by simp) e g.bodyTokens
    | none =>
      cases constr with
      | none => exact safe_no_colon front (t := .sym .semicolon) rfl (by simp) e g.bodyTokens
      | some c =>
        rcases hf with hf | hf | hf | hf | ⟨b, rfl⟩ | ⟨⟨first, rest, rfl⟩, hd⟩ | hf | hf | hf
        · cases hf
        · cases hf
        · cases hf
        · cases hf
        · cases b with
          | word w =>
            simp only [CField.bodyTokens, CFieldTypeId.tokens, CTypeInst.tokens, CTypeRef.tokens, CBuiltin.tokens, flagTokens,
              Bool.false_eq_true, if_false, List.nil_append, List.cons_append]
            exact key w.keyword _ (builtinWord_step w)
          | fixed signed width =>
            simp only [CField.bodyTokens, CFieldTypeId.tokens, CTypeInst.tokens, CTypeRef.tokens, CBuiltin.tokens, flagTokens,
              Bool.false_eq_true, if_false, List.nil_append, List.cons_append]
            cases signed
            · exact key .bit _ fun _ => rfl
            · exact key .int _ fun _ => rfl
        · cases args with
          | none =>
            have h := before_no_colon (p := .id first :: (dotTokens rest ++ [.id name]))
              (by rw [scanBefore]; simp only [beforeStep, Option.bind_some, scanBefore_append, scanBefore_dots]; rfl)
              (by simp [dots_no_colon]) e (rangeTokens array ++ (.sym .colon :: c.tokens ++ [.sym .semicolon])) g.bodyTokens
            intro hh
            refine h (Eq.trans ?_ hh)
            simp [CField.bodyTokens, CFieldTypeId.tokens, CTypeInst.tokens, CTypeRef.tokens, CArgs.tokens, flagTokens, clauseTokens]
          | typeArgs a as =>
            obtain ⟨t, ts, h1, h2, h3⟩ := typeArg_head a
            have h := before_no_colon (p := .id first :: (dotTokens rest ++ [.sym .lparen, t]))
              (by
                rw [scanBefore]
                simp only [beforeStep, Option.bind_some, scanBefore_append, scanBefore_dots, scanBefore]
                rfl)
              (by simp [dots_no_colon, Ne.symm h3]) e
              (ts ++ (afterCommas CTypeArg.tokens as ++ .sym .rparen :: .id name :: (rangeTokens array ++ (.sym .colon :: c.tokens ++
                [.sym .semicolon])))) g.bodyTokens
            intro hh
            refine h (Eq.trans ?_ hh)
            simp [CField.bodyTokens, CFieldTypeId.tokens, CTypeInst.tokens, CTypeRef.tokens, CArgs.tokens, flagTokens, clauseTokens, h1]
          | dynamicLength n => exact absurd rfl (hd n)
        · cases hf
        · exact absurd rfl hf
        · exact absurd rfl hf

end Verif
