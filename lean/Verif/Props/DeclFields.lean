import Verif.Props.DeclReads
import Verif.Props.Lexer

/-!
# Packages are read as they are written (C85)
-/

namespace Verif

/-! ## Fields -/

theorem closesField_ends {rest : List Token} (h : closesField rest = true) : Ends rest ∧ (∀ ts, rest ≠ .sym .lbracket :: ts) := by
  unfold closesField at h
  split at h <;> first | (cases h; done) | exact ⟨trivial, fun _ => nofun⟩ | exact ⟨rfl, fun _ => nofun⟩

theorem range_reads {a : Option (Option CExpr)} (hg : ∀ e, a = some (some e) → e.Grouped) {rest : List Token}
    (h : closesField rest = true) : arrayRange (rangeTokens a ++ rest) = some (a, rest) := by
  match a, hg with
  | none, _ =>
    simp only [rangeTokens, List.nil_append]
    unfold arrayRange
    split
    · exact absurd rfl ((closesField_ends h).2 _)
    · exact absurd rfl ((closesField_ends h).2 _)
    · rfl
  | some none, _ => rfl
  | some (some e), hg =>
    obtain ⟨t, ts, ht, -, hne, -⟩ := tokens_head e
    have := C81_reads e (hg e rfl) (.sym .rbracket :: rest) rfl
    simp only [rangeTokens, List.cons_append, List.append_assoc, List.nil_append]
    rw [ht] at this ⊢
    unfold arrayRange
    split
    · rename_i heq; simp only [List.cons_append, List.cons.injEq, true_and] at heq; exact absurd heq.1 hne
    · rename_i heq
      simp only [List.cons.injEq, true_and] at heq
      rw [← heq, this]
      simp
    · rename_i h2; exact (h2 _ rfl).elim

theorem range_inv {ts rest : List Token} {a : Option (Option CExpr)} (h : arrayRange ts = some (a, rest)) :
    ts = rangeTokens a ++ rest := by
  unfold arrayRange at h
  split at h
  · cases h; rfl
  · obtain ⟨⟨e, ts1⟩, h1, h2⟩ := Option.bind_eq_some_iff.1 h
    obtain ⟨ts2, h3, h4⟩ := Option.bind_eq_some_iff.1 h2
    cases h4
    rw [(C81_read h1).1, expect_inv h3]
    simp [rangeTokens]
  · cases h; rfl

theorem followsType_field (n : Ident) {a : Option (Option CExpr)} (hg : ∀ e, a = some (some e) → e.Grouped) {rest : List Token}
    (h : closesField rest = true) : followsType (.id n :: (rangeTokens a ++ rest)) = true := by
  match a, hg with
  | none, _ =>
    simp only [rangeTokens, List.nil_append]
    unfold followsType
    split
    · rename_i heq; exact absurd (List.cons.inj heq).2 ((closesField_ends h).2 _)
    · rename_i heq; exact absurd (List.cons.inj heq).2 ((closesField_ends h).2 _)
    · rename_i heq; rw [← (List.cons.inj heq).2]; exact h
    · rename_i h3; exact absurd rfl (h3 _ _)
  | some none, _ => exact h
  | some (some e), hg =>
    obtain ⟨t, ts, ht, -, hne, -⟩ := tokens_head e
    have := C81_reads e (hg e rfl) (.sym .rbracket :: rest) rfl
    simp only [rangeTokens, List.cons_append, List.append_assoc, List.nil_append]
    rw [ht] at this ⊢
    unfold followsType
    split
    · rename_i heq; simp only [List.cons_append, List.cons.injEq, true_and] at heq; exact absurd heq.2.1 hne
    · rename_i heq
      simp only [List.cons.injEq, true_and] at heq
      rw [← heq.2, this]
      exact h
    · rename_i h2 heq; simp only [List.cons.injEq] at heq; exact (h2 _ heq.2.symm).elim
    · rename_i h3; exact (h3 _ _ rfl).elim

theorem inst_no_keyword (t : CTypeInst) {k : Keyword} (hk : k.builtinWord = none) (r ts : List Token) : t.tokens ++ r ≠ .keyword k :: ts := by
  intro h
  rcases inst_head t with ⟨n, ts', h'⟩ | ⟨k', ts', h', hk'⟩ <;> (rw [h'] at h; cases h)
  exact hk' hk

theorem flag_no_keyword {k k' : Keyword} (hk : k' ≠ k) (b : Bool) {r : List Token} (hr : ∀ ts, r ≠ .keyword k :: ts) (ts : List Token) :
    flagTokens k' b ++ r ≠ .keyword k :: ts := by
  cases b with
  | true => intro h; simp [flagTokens] at h; exact hk h.1
  | false => exact hr ts

theorem typeId_reads {f : CFieldTypeId} (h : f.Readable) {rest : List Token} (hr : closesField rest = true) :
    fieldTypeId (f.tokens ++ rest) = some (f, rest) := by
  have h1 := inst_reads h.1 (followsType_field f.name h.2 hr)
  simp only [CFieldTypeId.tokens, List.append_assoc, fieldTypeId, List.cons_append]
  rw [optKeyword_reads _ _ (flag_no_keyword (by decide) _ (inst_no_keyword _ rfl _))]
  dsimp only
  rw [optKeyword_reads _ _ (inst_no_keyword _ rfl _)]
  dsimp only
  rw [h1]
  simp [range_reads h.2 hr]

theorem typeId_inv {ts rest : List Token} {f : CFieldTypeId} (h : fieldTypeId ts = some (f, rest)) : ts = f.tokens ++ rest := by
  have k1 := optKeyword_inv .packed ts
  unfold fieldTypeId at h
  rcases hp : optKeyword .packed ts with ⟨p, tsp⟩
  rw [hp] at h k1
  have k2 := optKeyword_inv .implicit tsp
  dsimp only at h k1
  rcases hq : optKeyword .implicit tsp with ⟨q, tsq⟩
  rw [hq] at h k2
  dsimp only at h k2
  obtain ⟨⟨t, ts1⟩, h1, h2⟩ := Option.bind_eq_some_iff.1 h
  obtain ⟨⟨n, ts2⟩, h3, h4⟩ := Option.bind_eq_some_iff.1 h2
  obtain ⟨⟨a, ts3⟩, h5, h6⟩ := Option.bind_eq_some_iff.1 h4
  cases h6
  have e1 := inst_inv h1
  have e2 := expectId_inv h3
  have e3 := range_inv h5
  dsimp only at e2 e3
  rw [k1, k2, e1, e2, e3]
  simp [CFieldTypeId.tokens]

theorem closes_clause {start : Token} (hs : ∀ ts, closesField (start :: ts) = true) (o : Option CExpr) {rest : List Token}
    (h : closesField rest = true) : closesField (clauseTokens start o ++ rest) = true := by
  cases o with
  | some e => exact hs _
  | none => exact h

theorem clause_ne {start t : Token} (h : start ≠ t) (o : Option CExpr) {rest : List Token} (hr : ∀ ts, rest ≠ t :: ts) (ts : List Token) :
    clauseTokens start o ++ rest ≠ t :: ts := by
  cases o with
  | some e => intro hh; simp [clauseTokens] at hh; exact h hh.1
  | none => exact hr ts

/-- A field without alignment and offset. -/
def CField.body (f : CField) : CField := { f with alignment := none, offset := none }

theorem body_reads {f : CField} (ht : f.typeId.Readable) (hi : OptGrouped f.initializer) (ho : OptGrouped f.optionalClause)
    (hc : OptGrouped f.constraint) (rest : List Token) : fieldBody (f.bodyTokens ++ rest) = some (f.body, rest) := by
  have c1 : closesField (.sym .semicolon :: rest) = true := rfl
  have c2 := closes_clause (start := .sym .colon) (fun _ => rfl) f.constraint c1
  have c3 := closes_clause (start := .keyword .if) (fun _ => rfl) f.optionalClause c2
  have c4 := closes_clause (start := .sym .assign) (fun _ => rfl) f.initializer c3
  have n2 : ∀ ts, clauseTokens (.sym .colon) f.constraint ++ .sym .semicolon :: rest ≠ .keyword .if :: ts :=
    clause_ne (by simp) _ (by simp)
  have n3 : ∀ ts, clauseTokens (.keyword .if) f.optionalClause ++ (clauseTokens (.sym .colon) f.constraint ++ .sym .semicolon :: rest) ≠
      .sym .assign :: ts := clause_ne (by simp) _ (clause_ne (by simp) _ (by simp))
  have k1 : ∀ ts, f.typeId.tokens ++ (clauseTokens (.sym .assign) f.initializer ++ (clauseTokens (.keyword .if) f.optionalClause ++
      (clauseTokens (.sym .colon) f.constraint ++ .sym .semicolon :: rest))) ≠ .keyword .optional :: ts := by
    simp only [CFieldTypeId.tokens, List.append_assoc]
    exact flag_no_keyword (by decide) _ (flag_no_keyword (by decide) _ (inst_no_keyword _ rfl _))
  have k2 : ∀ ts, f.typeId.tokens ++ (clauseTokens (.sym .assign) f.initializer ++ (clauseTokens (.keyword .if) f.optionalClause ++
      (clauseTokens (.sym .colon) f.constraint ++ .sym .semicolon :: rest))) ≠ .keyword .extend :: ts := by
    simp only [CFieldTypeId.tokens, List.append_assoc]
    exact flag_no_keyword (by decide) _ (flag_no_keyword (by decide) _ (inst_no_keyword _ rfl _))
  simp only [CField.bodyTokens, List.append_assoc, fieldBody, List.cons_append, List.nil_append]
  rw [optKeyword_reads _ _ (flag_no_keyword (by decide) _ k2)]
  dsimp only
  rw [optKeyword_reads _ _ k1]
  dsimp only
  rw [typeId_reads ht c4]
  dsimp only [bind, Option.bind]
  rw [clause_reads hi (closesField_ends c3).1 n3]
  dsimp only
  rw [clause_reads ho (closesField_ends c2).1 n2]
  dsimp only
  rw [clause_reads hc (closesField_ends c1).1 (by simp)]
  dsimp only
  rw [expect_sym]
  rfl

theorem body_inv {ts rest : List Token} {f : CField} (h : fieldBody ts = some (f, rest)) :
    ts = f.bodyTokens ++ rest ∧ f.body = f := by
  have k1 := optKeyword_inv .extend ts
  unfold fieldBody at h
  rcases hp : optKeyword .extend ts with ⟨p, tsp⟩
  rw [hp] at h k1
  have k2 := optKeyword_inv .optional tsp
  dsimp only at h k1
  rcases hq : optKeyword .optional tsp with ⟨q, tsq⟩
  rw [hq] at h k2
  dsimp only at h k2
  obtain ⟨⟨t, ts1⟩, h1, h2⟩ := Option.bind_eq_some_iff.1 h
  obtain ⟨⟨i, ts2⟩, h3, h4⟩ := Option.bind_eq_some_iff.1 h2
  obtain ⟨⟨o, ts3⟩, h5, h6⟩ := Option.bind_eq_some_iff.1 h4
  obtain ⟨⟨c, ts4⟩, h7, h8⟩ := Option.bind_eq_some_iff.1 h6
  obtain ⟨ts5, h9, h10⟩ := Option.bind_eq_some_iff.1 h8
  cases h10
  have e1 := typeId_inv h1
  have e2 := clause_inv h3
  have e3 := clause_inv h5
  have e4 := clause_inv h7
  have e5 := expect_inv h9
  dsimp only at e2 e3 e4 e5
  refine ⟨?_, rfl⟩
  rw [k1, k2, e1, e2, e3, e4, e5]
  simp [CField.bodyTokens]

/-! ## Offsets -/

/-- There is no semicolon in this. -/
def NoSemicolon (ts : List Token) : Prop := .sym .semicolon ∉ ts

theorem noSemicolon_append {a b : List Token} : NoSemicolon (a ++ b) ↔ NoSemicolon a ∧ NoSemicolon b := by
  simp [NoSemicolon]

theorem noSemicolon_cons {t : Token} {b : List Token} : NoSemicolon (t :: b) ↔ t ≠ .sym .semicolon ∧ NoSemicolon b := by
  simp [NoSemicolon, eq_comm]

theorem scan_noSemicolon {ts : List Token} : ∀ {s s' : List Punct}, scanBrackets s ts = .ok s' → NoSemicolon ts := by
  induction ts with
  | nil => intro s s' _; simp [NoSemicolon]
  | cons t ts ih =>
    intro s s' h
    rw [scanBrackets] at h
    split at h
    · rename_i s1 hs
      refine noSemicolon_cons.2 ⟨?_, ih h⟩
      rintro rfl
      cases hs
    · cases h

theorem expr_noSemicolon (e : CExpr) : NoSemicolon e.tokens := scan_noSemicolon (scan_tokens e [])

theorem clause_noSemicolon {start : Token} (h : start ≠ .sym .semicolon) (o : Option CExpr) : NoSemicolon (clauseTokens start o) := by
  cases o with
  | some e => exact noSemicolon_cons.2 ⟨h, expr_noSemicolon e⟩
  | none => simp [NoSemicolon, clauseTokens]

theorem builtin_noSemicolon (b : CBuiltin) : NoSemicolon b.tokens := by cases b <;> simp [NoSemicolon, CBuiltin.tokens]

theorem dot_noSemicolon (ns : List Ident) : NoSemicolon (dotTokens ns) := by simp [NoSemicolon, dotTokens]

mutual
theorem type_noSemicolon : ∀ t : CTypeRef, NoSemicolon t.tokens
  | .builtin b => by rw [CTypeRef.tokens]; exact builtin_noSemicolon b
  | .named first rest [] => by rw [CTypeRef.tokens]; exact noSemicolon_cons.2 ⟨by simp, dot_noSemicolon rest⟩
  | .named first rest (t :: ts) => by
    have h1 := type_noSemicolon t
    have h2 := types_noSemicolon ts
    rw [CTypeRef.tokens]
    simp only [noSemicolon_cons, noSemicolon_append]
    exact ⟨by simp, dot_noSemicolon rest, by simp, h1, h2, by simp, by simp [NoSemicolon]⟩

theorem types_noSemicolon : ∀ ts : List CTypeRef, NoSemicolon (moreTypeTokens ts)
  | [] => by simp [moreTypeTokens, NoSemicolon]
  | t :: ts => by
    have h1 := type_noSemicolon t
    have h2 := types_noSemicolon ts
    rw [moreTypeTokens]
    simp only [noSemicolon_cons, noSemicolon_append]
    exact ⟨by simp, h1, h2⟩
end

theorem afterCommas_noSemicolon {α : Type} {tok : α → List Token} {as : List α} (h : ∀ a ∈ as, NoSemicolon (tok a)) :
    NoSemicolon (afterCommas tok as) := by
  simp only [NoSemicolon, afterCommas, List.mem_flatMap, List.mem_cons, not_exists, not_and] at h ⊢
  intro a ha
  simpa using h a ha

theorem typeArg_noSemicolon (a : CTypeArg) : NoSemicolon a.tokens := by
  cases a with
  | explicit n => simp [NoSemicolon, CTypeArg.tokens]
  | expression e => exact expr_noSemicolon e

theorem args_noSemicolon (a : CArgs) : NoSemicolon a.tokens := by
  cases a with
  | none => simp [NoSemicolon, CArgs.tokens]
  | typeArgs first rest =>
    simp only [CArgs.tokens, noSemicolon_cons, noSemicolon_append]
    exact ⟨by simp, typeArg_noSemicolon _, afterCommas_noSemicolon fun a _ => typeArg_noSemicolon a, by simp, by simp [NoSemicolon]⟩
  | dynamicLength e =>
    simp only [CArgs.tokens, noSemicolon_cons, noSemicolon_append]
    exact ⟨by simp, expr_noSemicolon e, by simp, by simp [NoSemicolon]⟩

theorem range_noSemicolon (a : Option (Option CExpr)) : NoSemicolon (rangeTokens a) := by
  match a with
  | none => simp [NoSemicolon, rangeTokens]
  | some none => simp [NoSemicolon, rangeTokens]
  | some (some e) =>
    simp only [rangeTokens, noSemicolon_cons, noSemicolon_append]
    exact ⟨by simp, expr_noSemicolon e, by simp, by simp [NoSemicolon]⟩

theorem flag_noSemicolon (k : Keyword) (b : Bool) : NoSemicolon (flagTokens k b) := by cases b <;> simp [NoSemicolon, flagTokens]

/-- A field body has one semicolon, at the end. -/
theorem body_semicolon (f : CField) : ∃ b, f.bodyTokens = b ++ [.sym .semicolon] ∧ NoSemicolon b := by
  refine ⟨flagTokens .extend f.extend ++ (flagTokens .optional f.optional ++ (f.typeId.tokens ++
    (clauseTokens (.sym .assign) f.initializer ++ (clauseTokens (.keyword .if) f.optionalClause ++
      clauseTokens (.sym .colon) f.constraint)))), by simp [CField.bodyTokens], ?_⟩
  simp only [noSemicolon_append, CFieldTypeId.tokens, CTypeInst.tokens, noSemicolon_cons]
  exact ⟨flag_noSemicolon _ _, flag_noSemicolon _ _, ⟨flag_noSemicolon _ _, flag_noSemicolon _ _, ⟨type_noSemicolon _, args_noSemicolon _⟩,
    by simp, range_noSemicolon _⟩, clause_noSemicolon (by simp) _, clause_noSemicolon (by simp) _, clause_noSemicolon (by simp) _⟩

theorem semicolon_split {a b x y : List Token} (ha : NoSemicolon a) (hb : NoSemicolon b)
    (h : a ++ .sym .semicolon :: x = b ++ .sym .semicolon :: y) : a = b ∧ x = y := by
  induction a generalizing b with
  | nil =>
    cases b with
    | nil => simp at h; exact ⟨rfl, h⟩
    | cons t b => simp at h; exact absurd h.1.symm (noSemicolon_cons.1 hb).1
  | cons t a ih =>
    cases b with
    | nil => simp at h; exact absurd h.1 (noSemicolon_cons.1 ha).1
    | cons u b =>
      simp only [List.cons_append, List.cons.injEq] at h
      obtain ⟨h1, h2⟩ := ih (noSemicolon_cons.1 ha).2 (noSemicolon_cons.1 hb).2 h.2
      exact ⟨by rw [h.1, h1], h2⟩

/-- What an offset is read from. -/
theorem offset_inv {ts rest : List Token} {f : CField} (h : offsetBody ts = some (f, rest)) :
    ∃ e, f.offset = some e ∧ ts = e.tokens ++ .sym .colon :: (f.bodyTokens ++ rest) ∧ f.alignment = none := by
  obtain ⟨⟨e, ts1⟩, h1, h2⟩ := Option.bind_eq_some_iff.1 h
  obtain ⟨ts2, h3, h4⟩ := Option.bind_eq_some_iff.1 h2
  obtain ⟨⟨g, ts3⟩, h5, h6⟩ := Option.bind_eq_some_iff.1 h4
  cases h6
  obtain ⟨h7, h8⟩ := body_inv h5
  refine ⟨e, rfl, ?_, by rw [← h8]; rfl⟩
  rw [(C81_read h1).1, expect_inv h3, h7]
  rfl

theorem no_offset {f : CField} (h : ∀ (e : CExpr) (g : CField), f.bodyTokens ≠ e.tokens ++ .sym .colon :: g.bodyTokens)
    (rest : List Token) : offsetBody (f.bodyTokens ++ rest) = none := by
  cases ho : offsetBody (f.bodyTokens ++ rest) with
  | none => rfl
  | some r =>
    obtain ⟨g, r⟩ := r
    obtain ⟨e, -, h1, -⟩ := offset_inv ho
    obtain ⟨b, hb, hbn⟩ := body_semicolon f
    obtain ⟨c, hc, hcn⟩ := body_semicolon g
    have h2 : b ++ .sym .semicolon :: rest = (e.tokens ++ .sym .colon :: c) ++ .sym .semicolon :: r := by
      rw [hb, hc] at h1
      simpa using h1
    obtain ⟨h3, -⟩ := semicolon_split hbn (noSemicolon_append.2 ⟨expr_noSemicolon e, noSemicolon_cons.2 ⟨by simp, hcn⟩⟩) h2
    exact absurd (by rw [hb, hc, h3]; simp) (h e g)

theorem offset_reads {f : CField} {e : CExpr} (ho : f.offset = some e) (hg : e.Grouped) (ht : f.typeId.Readable)
    (hi : OptGrouped f.initializer) (hp : OptGrouped f.optionalClause) (hc : OptGrouped f.constraint) (rest : List Token) :
    offsetBody (e.tokens ++ .sym .colon :: (f.bodyTokens ++ rest)) = some ({ f with alignment := none }, rest) := by
  rw [offsetBody, C81_reads e hg _ (ends_colon _)]
  simp only [bind, Option.bind, expect_sym, body_reads ht hi hp hc]
  rcases f with ⟨_, _, _, _, _, _, _, _⟩
  cases ho
  rfl

theorem alignment_reads {o : Option CExpr} (hg : OptGrouped o) {rest : List Token} (hr : ∀ ts, rest ≠ .keyword .align :: ts) :
    fieldAlignment (alignmentTokens o ++ rest) = some (o, rest) := by
  cases o with
  | some e =>
    simp only [alignmentTokens, List.cons_append, List.append_assoc, List.nil_append, fieldAlignment, expect_sym]
    simp only [bind, Option.bind, C81_reads e hg (.sym .rparen :: .sym .colon :: rest) rfl, expect_sym]
    rfl
  | none =>
    simp only [alignmentTokens, List.nil_append]
    unfold fieldAlignment
    split
    · exact absurd rfl (hr _)
    · rfl

theorem alignment_inv {ts rest : List Token} {o : Option CExpr} (h : fieldAlignment ts = some (o, rest)) :
    ts = alignmentTokens o ++ rest := by
  unfold fieldAlignment at h
  split at h
  · obtain ⟨ts1, h1, h2⟩ := Option.bind_eq_some_iff.1 h
    obtain ⟨⟨e, ts2⟩, h3, h4⟩ := Option.bind_eq_some_iff.1 h2
    obtain ⟨ts3, h5, h6⟩ := Option.bind_eq_some_iff.1 h4
    obtain ⟨ts4, h7, h8⟩ := Option.bind_eq_some_iff.1 h6
    cases h8
    rw [expect_inv h1, (C81_read h3).1, expect_inv h5, expect_inv h7]
    simp [alignmentTokens]
  · cases h; rfl

theorem body_no_keyword (f : CField) {k : Keyword} (h : k ∉ [.extend, .optional, .packed, .implicit]) (hk : k.builtinWord = none)
    (r ts : List Token) : f.bodyTokens ++ r ≠ .keyword k :: ts := by
  simp only [List.mem_cons, List.not_mem_nil, not_or, or_false] at h
  simp only [CField.bodyTokens, CFieldTypeId.tokens, List.append_assoc]
  exact flag_no_keyword (Ne.symm h.1) _ (flag_no_keyword (Ne.symm h.2.1) _ (flag_no_keyword (Ne.symm h.2.2.1) _
    (flag_no_keyword (Ne.symm h.2.2.2) _ (inst_no_keyword _ hk _)))) ts

theorem body_ne_rbrace (f : CField) (r ts : List Token) : f.bodyTokens ++ r ≠ .sym .rbrace :: ts := by
  rcases f with ⟨_, _, ex, op, ⟨pa, im, ty, _, _⟩, _, _, _⟩
  intro h
  simp only [CField.bodyTokens, CFieldTypeId.tokens, List.append_assoc] at h
  cases ex <;> cases op <;> cases pa <;> cases im <;> simp [flagTokens] at h
  rcases inst_head ty with ⟨n, ts', h'⟩ | ⟨k', ts', h', hk'⟩ <;> (rw [h'] at h; cases h)

theorem field_reads {f : CField} (h : f.Readable) (rest : List Token) : structureField (f.tokens ++ rest) = some (f, rest) := by
  obtain ⟨ha, ho, ht, hi, hp, hc, hu⟩ := h
  have hb := body_no_keyword f (k := .align) (by simp) rfl rest
  simp only [CField.tokens, List.append_assoc, structureField]
  cases hoe : f.offset with
  | some e =>
    rw [hoe] at ho
    obtain ⟨t, ts, htt, -, -, -, hal, -⟩ := tokens_head e
    rw [alignment_reads ha (by
      intro ts' hh
      simp only [offsetTokens, htt, List.cons_append, List.cons.injEq] at hh
      exact hal hh.1)]
    simp only [bind, Option.bind, offsetTokens, List.append_assoc, List.cons_append, List.nil_append]
    rw [offset_reads hoe ho ht hi hp hc]
    rfl
  | none =>
    rw [show offsetTokens none ++ (f.bodyTokens ++ rest) = f.bodyTokens ++ rest from rfl, alignment_reads ha hb]
    simp only [bind, Option.bind]
    rw [no_offset (hu hoe)]
    rw [body_reads ht hi hp hc]
    rcases f with ⟨_, _, _, _, _, _, _, _⟩
    cases hoe
    rfl

theorem orElse_some {α : Type} {x y : Option α} {a : α} (h : (x.orElse fun _ => y) = some a) : x = some a ∨ x = none ∧ y = some a := by
  cases x with
  | none => exact Or.inr ⟨rfl, h⟩
  | some b => exact Or.inl h

theorem field_inv {ts rest : List Token} {f : CField} (h : structureField ts = some (f, rest)) : ts = f.tokens ++ rest := by
  obtain ⟨⟨a, ts1⟩, h1, h2⟩ := Option.bind_eq_some_iff.1 h
  obtain ⟨⟨g, ts2⟩, h3, h4⟩ := Option.bind_eq_some_iff.1 h2
  cases h4
  have e1 := alignment_inv h1
  rcases orElse_some h3 with hr | ⟨-, h3⟩
  · obtain ⟨e, he, h5, -⟩ := offset_inv hr
    rw [e1, h5]
    simp only [CField.tokens, he, offsetTokens, List.append_assoc, List.cons_append, List.nil_append]
    rfl
  · obtain ⟨h5, h6⟩ := body_inv h3
    have h7 : g.offset = none := by rw [← h6]; rfl
    rw [e1, h5]
    simp only [CField.tokens, h7, offsetTokens, List.append_assoc, List.nil_append]
    rfl

/-! ## Fields of choices and unions -/

theorem choiceField_reads {f : CChoiceField} (h : f.Readable) (rest : List Token) :
    choiceField (f.tokens ++ .sym .semicolon :: rest) = some (f, .sym .semicolon :: rest) := by
  have c1 : closesField (.sym .semicolon :: rest) = true := rfl
  have c2 := closes_clause (start := .sym .colon) (fun _ => rfl) f.constraint c1
  simp only [CChoiceField.tokens, List.append_assoc, choiceField]
  rw [typeId_reads h.1 c2]
  simp only [bind, Option.bind]
  rw [clause_reads h.2 (closesField_ends c1).1 (by simp)]
  rfl

theorem choiceField_inv {ts rest : List Token} {f : CChoiceField} (h : choiceField ts = some (f, rest)) : ts = f.tokens ++ rest := by
  obtain ⟨⟨t, ts1⟩, h1, h2⟩ := Option.bind_eq_some_iff.1 h
  obtain ⟨⟨c, ts2⟩, h3, h4⟩ := Option.bind_eq_some_iff.1 h2
  cases h4
  rw [typeId_inv h1, clause_inv h3]
  simp [CChoiceField.tokens]

theorem unionField_reads {f : CChoiceField} (h : f.Readable) (rest : List Token) :
    unionField (f.tokens ++ .sym .semicolon :: rest) = some (f, rest) := by
  rw [unionField, choiceField_reads h]
  simp

theorem unionField_inv {ts rest : List Token} {f : CChoiceField} (h : unionField ts = some (f, rest)) :
    ts = f.tokens ++ .sym .semicolon :: rest := by
  obtain ⟨⟨g, ts1⟩, h1, h2⟩ := Option.bind_eq_some_iff.1 h
  obtain ⟨ts2, h3, h4⟩ := Option.bind_eq_some_iff.1 h2
  cases h4
  rw [choiceField_inv h1, expect_inv h3]

/-- The first token of a field. -/
theorem typeId_head (f : CFieldTypeId) : (∃ n ts, f.tokens = .id n :: ts) ∨
    ∃ k ts, f.tokens = .keyword k :: ts ∧ (k.builtinWord ≠ none ∨ k = .packed ∨ k = .implicit) := by
  rcases f with ⟨pa, im, ty, n, a⟩
  cases pa
  · cases im
    · rcases inst_head ty with ⟨n', ts, h⟩ | ⟨k, ts, h, hk⟩
      · exact Or.inl ⟨n', ts ++ .id n :: rangeTokens a, by simp [CFieldTypeId.tokens, flagTokens, h]⟩
      · exact Or.inr ⟨k, ts ++ .id n :: rangeTokens a, by simp [CFieldTypeId.tokens, flagTokens, h], Or.inl hk⟩
    · exact Or.inr ⟨.implicit, _, rfl, Or.inr (Or.inr rfl)⟩
  · exact Or.inr ⟨.packed, _, rfl, Or.inr (Or.inl rfl)⟩

theorem optChoiceField_reads {o : Option CChoiceField} (h : ∀ f, o = some f → f.Readable) (rest : List Token) :
    optChoiceField (optFieldTokens o ++ rest) = some (o, rest) := by
  cases o with
  | none => rfl
  | some f =>
    have h1 := unionField_reads (h f rfl) rest
    simp only [optFieldTokens, List.append_assoc, List.cons_append, List.nil_append]
    unfold optChoiceField
    split
    · rename_i heq
      simp only [CChoiceField.tokens, List.append_assoc] at heq
      rcases typeId_head f.typeId with ⟨n, ts, h⟩ | ⟨k, ts, h, -⟩ <;> (rw [h] at heq; cases heq)
    · rw [h1]; rfl

theorem optChoiceField_inv {ts rest : List Token} {o : Option CChoiceField} (h : optChoiceField ts = some (o, rest)) :
    ts = optFieldTokens o ++ rest := by
  unfold optChoiceField at h
  split at h
  · cases h; rfl
  · obtain ⟨⟨f, ts1⟩, h1, h2⟩ := Option.bind_eq_some_iff.1 h
    cases h2
    rw [unionField_inv h1]
    simp [optFieldTokens]

theorem optField_no_case (o : Option CChoiceField) (r : List Token) : beginsKeyword .case (optFieldTokens o ++ r) = false := by
  cases o with
  | none => rfl
  | some f =>
    simp only [optFieldTokens, CChoiceField.tokens, List.append_assoc]
    rcases typeId_head f.typeId with ⟨n, ts, h⟩ | ⟨k, ts, h, hk⟩
    · rw [h]; rfl
    · rw [h]
      simp only [List.cons_append, beginsKeyword, decide_eq_false_iff_not]
      rintro rfl
      rcases hk with hk | hk | hk <;> simp [Keyword.builtinWord] at hk

theorem case_reads {e : CExpr} (hg : e.Grouped) (rest : List Token) : choiceCase (caseTokens e ++ rest) = some (e, rest) := by
  simp only [caseTokens, List.cons_append, List.append_assoc, List.nil_append, choiceCase, expectKeyword_keyword]
  simp only [bind, Option.bind, C81_reads e hg (.sym .colon :: rest) rfl, expect_sym]
  rfl

theorem case_inv {ts rest : List Token} {e : CExpr} (h : choiceCase ts = some (e, rest)) : ts = caseTokens e ++ rest := by
  obtain ⟨ts1, h1, h2⟩ := Option.bind_eq_some_iff.1 h
  obtain ⟨⟨e', ts2⟩, h3, h4⟩ := Option.bind_eq_some_iff.1 h2
  obtain ⟨ts3, h5, h6⟩ := Option.bind_eq_some_iff.1 h4
  cases h6
  rw [expectKeyword_inv h1, (C81_read h3).1, expect_inv h5]
  simp [caseTokens]

theorem cases_reads {c : CChoiceCases} (h : c.Readable) (rest : List Token) : choiceCases (c.tokens ++ rest) = some (c, rest) := by
  simp only [CChoiceCases.tokens, List.flatMap_cons, List.append_assoc, choiceCases]
  rw [case_reads (h.1 _ (by simp))]
  simp only [bind, Option.bind]
  rw [many_reads' (optField_no_case c.field rest) c.others
    (fun e he r => ⟨rfl, case_reads (h.1 e (List.mem_cons_of_mem _ he)) r⟩) (fun e _ => by simp [caseTokens])]
  dsimp only
  rw [optChoiceField_reads h.2]
  rfl

theorem cases_inv {ts rest : List Token} {c : CChoiceCases} (h : choiceCases ts = some (c, rest)) : ts = c.tokens ++ rest := by
  obtain ⟨⟨e, ts1⟩, h1, h2⟩ := Option.bind_eq_some_iff.1 h
  obtain ⟨⟨es, ts2⟩, h3, h4⟩ := Option.bind_eq_some_iff.1 h2
  obtain ⟨⟨f, ts3⟩, h5, h6⟩ := Option.bind_eq_some_iff.1 h4
  cases h6
  rw [case_inv h1, many_inv' (fun ts e r => case_inv) h3, optChoiceField_inv h5]
  simp [CChoiceCases.tokens]

theorem default_reads {o : Option (Option CChoiceField)} (h : ∀ f, o = some (some f) → f.Readable) {rest : List Token}
    (hr : ∀ ts, rest ≠ .keyword .default :: ts) : choiceDefault (defaultTokens o ++ rest) = some (o, rest) := by
  cases o with
  | none =>
    simp only [defaultTokens, List.nil_append]
    unfold choiceDefault
    split
    · exact absurd rfl (hr _)
    · rfl
  | some f =>
    simp only [defaultTokens, List.cons_append, choiceDefault, expect_sym]
    simp only [bind, Option.bind, optChoiceField_reads (o := f) (fun g hg => h g (by rw [hg]))]
    rfl

theorem default_inv {ts rest : List Token} {o : Option (Option CChoiceField)} (h : choiceDefault ts = some (o, rest)) :
    ts = defaultTokens o ++ rest := by
  unfold choiceDefault at h
  split at h
  · obtain ⟨ts1, h1, h2⟩ := Option.bind_eq_some_iff.1 h
    obtain ⟨⟨f, ts2⟩, h3, h4⟩ := Option.bind_eq_some_iff.1 h2
    cases h4
    rw [expect_inv h1, optChoiceField_inv h3]
    rfl
  · cases h; rfl

/-! ## Parts of declarations -/

theorem parameter_reads (p : CParam) (rest : List Token) : parameter (p.tokens ++ rest) = some (p, rest) := by
  simp only [CParam.tokens, List.append_assoc, List.cons_append, List.nil_append, parameter]
  rw [parseTypeRef_reads p.type (rest := .id p.name :: rest) trivial]
  rfl

theorem parameter_inv {ts rest : List Token} {p : CParam} (h : parameter ts = some (p, rest)) : ts = p.tokens ++ rest := by
  obtain ⟨⟨t, ts1⟩, h1, h2⟩ := Option.bind_eq_some_iff.1 h
  obtain ⟨⟨n, ts2⟩, h3, h4⟩ := Option.bind_eq_some_iff.1 h2
  cases h4
  rw [parseTypeRef_inv h1, expectId_inv h3]
  simp [CParam.tokens]

theorem function_reads {f : CFunction} (hg : f.result.Grouped) (rest : List Token) :
    functionDefinition (f.tokens ++ rest) = some (f, rest) := by
  simp only [CFunction.tokens, List.append_assoc, List.cons_append, List.nil_append, functionDefinition, expectKeyword_keyword]
  simp only [bind, Option.bind]
  rw [parseTypeRef_reads f.type (rest := .id f.name :: _) trivial]
  simp only [expectId_id, expect_sym, expectKeyword_keyword, C81_reads f.result hg (.sym .semicolon :: _) rfl]
  rfl

theorem function_inv {ts rest : List Token} {f : CFunction} (h : functionDefinition ts = some (f, rest)) : ts = f.tokens ++ rest := by
  obtain ⟨ts1, h1, g1⟩ := Option.bind_eq_some_iff.1 h
  obtain ⟨⟨t, ts2⟩, h2, g2⟩ := Option.bind_eq_some_iff.1 g1
  obtain ⟨⟨n, ts3⟩, h3, g3⟩ := Option.bind_eq_some_iff.1 g2
  obtain ⟨ts4, h4, g4⟩ := Option.bind_eq_some_iff.1 g3
  obtain ⟨ts5, h5, g5⟩ := Option.bind_eq_some_iff.1 g4
  obtain ⟨ts6, h6, g6⟩ := Option.bind_eq_some_iff.1 g5
  obtain ⟨ts7, h7, g7⟩ := Option.bind_eq_some_iff.1 g6
  obtain ⟨⟨e, ts8⟩, h8, g8⟩ := Option.bind_eq_some_iff.1 g7
  obtain ⟨ts9, h9, g9⟩ := Option.bind_eq_some_iff.1 g8
  obtain ⟨ts10, h10, g10⟩ := Option.bind_eq_some_iff.1 g9
  cases g10
  have e3 := expectId_inv h3
  have e4 := expect_inv h4
  rw [expectKeyword_inv h1, parseTypeRef_inv h2, e3, e4, expect_inv h5, expect_inv h6, expectKeyword_inv h7, (C81_read h8).1,
    expect_inv h9, expect_inv h10]
  simp [CFunction.tokens]

theorem templateParams_reads (ns : List Ident) {rest : List Token} (hr : ∀ ts, rest ≠ .sym .lt :: ts) :
    templateParameters (templateParamTokens ns ++ rest) = some (ns, rest) := by
  cases ns with
  | nil =>
    simp only [templateParamTokens, List.nil_append]
    unfold templateParameters
    split
    · exact absurd rfl (hr _)
    · rfl
  | cons n ns =>
    have := commaList_reads (item := expectId) (tok := fun n => [.id n]) (P := fun _ => True) (fun _ => trivial)
      (rest := .sym .gt :: rest) trivial (by simp) ns n
      ((.id n :: (afterCommas (fun n => [.id n]) ns ++ .sym .gt :: rest)).length + 1) (fun x _ r _ => rfl)
      (by have := afterCommas_length (fun n : Ident => [Token.id n]) ns; simp only [List.length_cons, List.length_append]; omega)
    simp only [templateParamTokens, List.cons_append, List.append_assoc, List.nil_append, templateParameters] at this ⊢
    rw [this]
    simp

theorem templateParams_inv {ts rest : List Token} {ns : List Ident} (h : templateParameters ts = some (ns, rest)) :
    ts = templateParamTokens ns ++ rest := by
  unfold templateParameters at h
  split at h
  · obtain ⟨⟨as, ts1⟩, h1, h2⟩ := Option.bind_eq_some_iff.1 h
    obtain ⟨ts2, h3, h4⟩ := Option.bind_eq_some_iff.1 h2
    obtain ⟨b, bs, rfl, h5⟩ := commaList_inv (tok := fun n => [.id n]) (fun ts a r hh => expectId_inv hh) _ _ _ _ h1
    cases h4
    rw [h5, expect_inv h3]
    simp [templateParamTokens]
  · cases h; rfl

theorem typeParams_reads (ps : List CParam) {rest : List Token} (hr : ∀ ts, rest ≠ .sym .lparen :: ts) :
    typeParameters (typeParamTokens ps ++ rest) = some (ps, rest) := by
  cases ps with
  | nil =>
    simp only [typeParamTokens, List.nil_append]
    unfold typeParameters
    split
    · exact absurd rfl (hr _)
    · rfl
  | cons p ps =>
    simp only [typeParamTokens, List.cons_append, List.append_assoc, List.nil_append, typeParameters]
    rw [commaList_reads (tok := CParam.tokens) (P := fun _ => True) (fun _ => trivial) trivial (by simp) ps p _
      (fun x _ r _ => parameter_reads x r)
      (by have := afterCommas_length CParam.tokens ps; simp only [List.length_append]; omega)]
    simp

theorem typeParams_inv {ts rest : List Token} {ps : List CParam} (h : typeParameters ts = some (ps, rest)) :
    ts = typeParamTokens ps ++ rest := by
  unfold typeParameters at h
  split at h
  · obtain ⟨⟨as, ts1⟩, h1, h2⟩ := Option.bind_eq_some_iff.1 h
    obtain ⟨ts2, h3, h4⟩ := Option.bind_eq_some_iff.1 h2
    obtain ⟨b, bs, rfl, h5⟩ := commaList_inv (tok := CParam.tokens) (fun ts a r => parameter_inv) _ _ _ _ h1
    cases h4
    rw [h5, expect_inv h3]
    simp [typeParamTokens]
  · cases h; rfl

theorem typeParams_ne_lt (ps : List CParam) {rest : List Token} (hr : ∀ ts, rest ≠ .sym .lt :: ts) (ts : List Token) :
    typeParamTokens ps ++ rest ≠ .sym .lt :: ts := by
  cases ps with
  | nil => exact hr ts
  | cons p ps => simp [typeParamTokens]

theorem head_reads (d : CHead) {rest : List Token} (h1 : ∀ ts, rest ≠ .sym .lt :: ts) (h2 : ∀ ts, rest ≠ .sym .lparen :: ts) :
    declHead (d.tokens ++ rest) = some (d, rest) := by
  simp only [CHead.tokens, List.cons_append, List.append_assoc, declHead, expectId_id]
  simp only [bind, Option.bind]
  rw [templateParams_reads _ (typeParams_ne_lt _ h1)]
  dsimp only
  rw [typeParams_reads _ h2]
  rfl

theorem head_inv {ts rest : List Token} {d : CHead} (h : declHead ts = some (d, rest)) : ts = d.tokens ++ rest := by
  obtain ⟨⟨n, ts1⟩, h1, g1⟩ := Option.bind_eq_some_iff.1 h
  obtain ⟨⟨tp, ts2⟩, h2, g2⟩ := Option.bind_eq_some_iff.1 g1
  obtain ⟨⟨ps, ts3⟩, h3, g3⟩ := Option.bind_eq_some_iff.1 g2
  cases g3
  have e2 := templateParams_inv h2
  have e3 := typeParams_inv h3
  rw [expectId_inv h1, e2, e3]
  simp [CHead.tokens]

theorem functionsEnd_reads {fs : List CFunction} (hg : ∀ f ∈ fs, f.result.Grouped) (rest : List Token) :
    functionsEnd (endTokens fs ++ rest) = some (fs, rest) := by
  simp only [endTokens, List.append_assoc, List.cons_append, List.nil_append, functionsEnd]
  rw [many_reads' (rest := .sym .rbrace :: .sym .semicolon :: rest) (begins := beginsKeyword .function) rfl fs
    (fun f hf r => ⟨rfl, function_reads (hg f hf) r⟩) (fun f _ => by simp [CFunction.tokens])]
  simp

theorem functionsEnd_inv {ts rest : List Token} {fs : List CFunction} (h : functionsEnd ts = some (fs, rest)) :
    ts = endTokens fs ++ rest := by
  obtain ⟨⟨gs, ts1⟩, h1, g1⟩ := Option.bind_eq_some_iff.1 h
  obtain ⟨ts2, h2, g2⟩ := Option.bind_eq_some_iff.1 g1
  obtain ⟨ts3, h3, g3⟩ := Option.bind_eq_some_iff.1 g2
  cases g3
  rw [many_inv' (fun ts e r => function_inv) h1, expect_inv h2, expect_inv h3]
  simp [endTokens]

theorem end_no_keyword (fs : List CFunction) {k : Keyword} (hk : k ≠ .function) (r ts : List Token) :
    endTokens fs ++ r ≠ .keyword k :: ts := by
  cases fs with
  | nil => simp [endTokens]
  | cons f fs =>
    intro h
    simp [endTokens, CFunction.tokens] at h
    exact hk h.1.symm

theorem end_no_field (fs : List CFunction) (r : List Token) : beginsField (endTokens fs ++ r) = false := by
  cases fs with
  | nil => rfl
  | cons f fs => rfl

theorem end_no_case (fs : List CFunction) (r : List Token) : beginsKeyword .case (endTokens fs ++ r) = false := by
  cases fs with
  | nil => rfl
  | cons f fs => rfl

theorem default_no_case (o : Option (Option CChoiceField)) (fs : List CFunction) (r : List Token) :
    beginsKeyword .case (defaultTokens o ++ (endTokens fs ++ r)) = false := by
  cases o with
  | none => exact end_no_case fs r
  | some f => rfl

end Verif
