import Verif.Props.DeclFields
import Verif.Props.DeclOffsets

/-!
# Tables, databases, services, topics and rules are read as they are written (C85)
-/

namespace Verif

theorem closeDecl_reads (rest : List Token) : closeDecl (.sym .rbrace :: .sym .semicolon :: rest) = some rest := by
  simp [closeDecl]

theorem closeDecl_inv {ts rest : List Token} (h : closeDecl ts = some rest) : ts = .sym .rbrace :: .sym .semicolon :: rest := by
  obtain ⟨ts1, h1, h2⟩ := Option.bind_eq_some_iff.1 h
  rw [expect_inv h1, expect_inv h2]

theorem namedType_reads (t : CTypeRef) (n : Ident) (rest : List Token) :
    namedType (t.tokens ++ .id n :: .sym .semicolon :: rest) = some ((t, n), rest) := by
  rw [namedType, parseTypeRef_reads t (rest := .id n :: _) trivial]
  simp

theorem namedType_inv {ts rest : List Token} {t : CTypeRef} {n : Ident} (h : namedType ts = some ((t, n), rest)) :
    ts = t.tokens ++ .id n :: .sym .semicolon :: rest := by
  obtain ⟨⟨t', ts1⟩, h1, g1⟩ := Option.bind_eq_some_iff.1 h
  obtain ⟨⟨n', ts2⟩, h2, g2⟩ := Option.bind_eq_some_iff.1 g1
  obtain ⟨ts3, h3, g3⟩ := Option.bind_eq_some_iff.1 g2
  cases g3
  have e2 := expectId_inv h2
  rw [parseTypeRef_inv h1, e2, expect_inv h3]

/-! ## Rules -/

theorem rule_reads {e : CExpr} (hg : e.Grouped) (r : List Token) :
    ruleDefinition (.keyword .rule :: (e.tokens ++ [.sym .semicolon]) ++ r) = some (e, r) := by
  simp only [List.cons_append, List.append_assoc, List.nil_append, ruleDefinition, expectKeyword_keyword]
  simp only [bind, Option.bind, C81_reads e hg (.sym .semicolon :: r) rfl, expect_sym]
  rfl

theorem rule_inv {ts r : List Token} {e : CExpr} (h : ruleDefinition ts = some (e, r)) :
    ts = .keyword .rule :: (e.tokens ++ [.sym .semicolon]) ++ r := by
  obtain ⟨ts1, h1, g1⟩ := Option.bind_eq_some_iff.1 h
  obtain ⟨⟨e', ts2⟩, h2, g2⟩ := Option.bind_eq_some_iff.1 g1
  obtain ⟨ts3, h3, g3⟩ := Option.bind_eq_some_iff.1 g2
  cases g3
  have e3 : ts2 = _ := expect_inv h3
  rw [expectKeyword_inv h1, (C81_read h2).1, e3]
  simp

/-! ## Tables -/

theorem using_reads (o : Option Ident) {rest : List Token} (hr : ∀ ts, rest ≠ .keyword .using :: ts) :
    sqlUsing (usingTokens o ++ rest) = some (o, rest) := by
  cases o with
  | some n => simp [usingTokens, sqlUsing]
  | none =>
    simp only [usingTokens, List.nil_append]
    unfold sqlUsing
    split
    · exact absurd rfl (hr _)
    · rfl

theorem using_inv {ts rest : List Token} {o : Option Ident} (h : sqlUsing ts = some (o, rest)) : ts = usingTokens o ++ rest := by
  unfold sqlUsing at h
  split at h
  · obtain ⟨⟨n, ts1⟩, h1, g1⟩ := Option.bind_eq_some_iff.1 h
    cases g1
    rw [expectId_inv h1]
    rfl
  · cases h; rfl

theorem closes_sql (o : Option CExpr) (r : List Token) : closesField (clauseTokens (.keyword .sql) o ++ .sym .semicolon :: r) = true := by
  cases o <;> rfl

theorem sqlField_reads {f : CSqlField} (ht : f.type.Readable) (hc : OptGrouped f.constraint) (r : List Token) :
    sqlTableField (f.tokens ++ r) = some (f, r) := by
  simp only [CSqlField.tokens, List.append_assoc, List.cons_append, List.nil_append, sqlTableField]
  rw [optKeyword_reads _ _ (inst_no_keyword _ rfl _)]
  dsimp only
  have h1 : followsType (.id f.name :: (clauseTokens (.keyword .sql) f.constraint ++ .sym .semicolon :: r)) = true :=
    followsType_field f.name (a := none) (by simp) (closes_sql f.constraint r)
  rw [inst_reads ht h1]
  simp only [bind, Option.bind, expectId_id]
  rw [clause_reads hc (rest := .sym .semicolon :: r) rfl (by simp)]
  simp

theorem sqlField_inv {ts r : List Token} {f : CSqlField} (h : sqlTableField ts = some (f, r)) : ts = f.tokens ++ r := by
  have k1 := optKeyword_inv .sqlVirtual ts
  unfold sqlTableField at h
  rcases hp : optKeyword .sqlVirtual ts with ⟨p, tsp⟩
  rw [hp] at h k1
  dsimp only at h k1
  obtain ⟨⟨t, ts1⟩, h1, g1⟩ := Option.bind_eq_some_iff.1 h
  obtain ⟨⟨n, ts2⟩, h2, g2⟩ := Option.bind_eq_some_iff.1 g1
  obtain ⟨⟨c, ts3⟩, h3, g3⟩ := Option.bind_eq_some_iff.1 g2
  obtain ⟨ts4, h4, g4⟩ := Option.bind_eq_some_iff.1 g3
  cases g4
  have e2 := expectId_inv h2
  have e3 := clause_inv h3
  have e4 := expect_inv h4
  try dsimp only at e2 e3 e4
  rw [k1, inst_inv h1, e2, e3, e4]
  simp [CSqlField.tokens]

theorem beginsSqlField_of {ts : List Token} (h1 : ∀ r, ts ≠ .keyword .sql :: r) (h2 : ∀ r, ts ≠ .keyword .sqlWithoutRowid :: r)
    (h3 : ∀ r, ts ≠ .sym .rbrace :: r) : beginsSqlField ts = true := by
  unfold beginsSqlField
  split
  · exact absurd rfl (h1 _)
  · exact absurd rfl (h2 _)
  · exact absurd rfl (h3 _)
  · rfl

theorem inst_ne_rbrace (t : CTypeInst) (r ts : List Token) : t.tokens ++ r ≠ .sym .rbrace :: ts := by
  rcases inst_head t with ⟨n, ts', h⟩ | ⟨k, ts', h, -⟩ <;> simp [h]

theorem typeRef_ne_rbrace (t : CTypeRef) (r ts : List Token) : t.tokens ++ r ≠ .sym .rbrace :: ts := by
  rcases typeRef_head t with ⟨n, ts', h⟩ | ⟨k, ts', h, -⟩ <;> simp [h]

theorem sqlField_begins (f : CSqlField) (r : List Token) : beginsSqlField (f.tokens ++ r) = true := by
  simp only [CSqlField.tokens, List.append_assoc]
  refine beginsSqlField_of (flag_no_keyword (by decide) _ (inst_no_keyword _ rfl _)) (flag_no_keyword (by decide) _ (inst_no_keyword _ rfl _)) ?_
  intro ts h
  cases hv : f.virtual <;> rw [hv] at h
  · exact inst_ne_rbrace _ _ _ h
  · simp [flagTokens] at h

theorem notClosed_of {ts : List Token} (h : ∀ r, ts ≠ .sym .rbrace :: r) : notClosed ts = true := by
  unfold notClosed
  split
  · exact absurd rfl (h _)
  · rfl

theorem tableConstraint_reads {o : Option CExpr} (hg : OptGrouped o) {rest : List Token} (hr : ∀ ts, rest ≠ .keyword .sql :: ts) :
    sqlConstraintDefinition (tableConstraintTokens o ++ rest) = some (o, rest) := by
  cases o with
  | some e =>
    simp only [tableConstraintTokens, List.cons_append, List.append_assoc, List.nil_append, sqlConstraintDefinition]
    simp only [bind, Option.bind, C81_reads e hg (.sym .semicolon :: rest) rfl, expect_sym]
    rfl
  | none =>
    simp only [tableConstraintTokens, List.nil_append]
    unfold sqlConstraintDefinition
    split
    · exact absurd rfl (hr _)
    · rfl

theorem tableConstraint_inv {ts rest : List Token} {o : Option CExpr} (h : sqlConstraintDefinition ts = some (o, rest)) :
    ts = tableConstraintTokens o ++ rest := by
  unfold sqlConstraintDefinition at h
  split at h
  · obtain ⟨⟨e, ts1⟩, h1, g1⟩ := Option.bind_eq_some_iff.1 h
    obtain ⟨ts2, h2, g2⟩ := Option.bind_eq_some_iff.1 g1
    cases g2
    have e2 : ts1 = _ := expect_inv h2
    rw [(C81_read h1).1, e2]
    simp [tableConstraintTokens]
  · cases h; rfl

/-- `sql_without_rowid;` or nothing -/
def rowIdTokens (b : Bool) : List Token := if b then [.keyword .sqlWithoutRowid, .sym .semicolon] else []

theorem rowId_reads (b : Bool) (r : List Token) : sqlWithoutRowId (rowIdTokens b ++ .sym .rbrace :: r) = some (b, .sym .rbrace :: r) := by
  cases b <;> simp [rowIdTokens, sqlWithoutRowId]

theorem rowId_inv {ts rest : List Token} {b : Bool} (h : sqlWithoutRowId ts = some (b, rest)) : ts = rowIdTokens b ++ rest := by
  unfold sqlWithoutRowId at h
  split at h
  · obtain ⟨ts1, h1, g1⟩ := Option.bind_eq_some_iff.1 h
    cases g1
    rw [expect_inv h1]
    simp [rowIdTokens]
  · cases h; rfl

theorem rowId_no_sql (b : Bool) (r ts : List Token) : rowIdTokens b ++ .sym .rbrace :: r ≠ .keyword .sql :: ts := by
  cases b <;> simp [rowIdTokens]

theorem members_end (o : Option CExpr) (b : Bool) (r : List Token) :
    beginsSqlField (tableConstraintTokens o ++ (rowIdTokens b ++ .sym .rbrace :: r)) = false := by
  cases o <;> cases b <;> rfl

/-! ## Databases, services and topics -/

theorem tableRef_reads {f : CSqlTableRef} (ht : f.type.Readable) (r : List Token) : sqlDatabaseField (f.tokens ++ r) = some (f, r) := by
  simp only [CSqlTableRef.tokens, List.append_assoc, List.cons_append, List.nil_append, sqlDatabaseField]
  rw [inst_reads ht rfl]
  simp

theorem tableRef_inv {ts r : List Token} {f : CSqlTableRef} (h : sqlDatabaseField ts = some (f, r)) : ts = f.tokens ++ r := by
  obtain ⟨⟨t, ts1⟩, h1, g1⟩ := Option.bind_eq_some_iff.1 h
  obtain ⟨⟨n, ts2⟩, h2, g2⟩ := Option.bind_eq_some_iff.1 g1
  obtain ⟨ts3, h3, g3⟩ := Option.bind_eq_some_iff.1 g2
  cases g3
  have e2 := expectId_inv h2
  rw [inst_inv h1, e2, expect_inv h3]
  simp [CSqlTableRef.tokens]

theorem method_reads (m : CMethod) (r : List Token) : serviceMethod (m.tokens ++ r) = some (m, r) := by
  simp only [CMethod.tokens, List.append_assoc, List.cons_append, List.nil_append, serviceMethod]
  rw [parseTypeRef_reads m.result (rest := .id m.name :: _) trivial]
  simp only [bind, Option.bind, expectId_id, expect_sym]
  rw [parseTypeRef_reads m.argument (rest := .sym .rparen :: _) (by trivial)]
  simp

theorem method_inv {ts r : List Token} {m : CMethod} (h : serviceMethod ts = some (m, r)) : ts = m.tokens ++ r := by
  obtain ⟨⟨t, ts1⟩, h1, g1⟩ := Option.bind_eq_some_iff.1 h
  obtain ⟨⟨n, ts2⟩, h2, g2⟩ := Option.bind_eq_some_iff.1 g1
  obtain ⟨ts3, h3, g3⟩ := Option.bind_eq_some_iff.1 g2
  obtain ⟨⟨a, ts4⟩, h4, g4⟩ := Option.bind_eq_some_iff.1 g3
  obtain ⟨ts5, h5, g5⟩ := Option.bind_eq_some_iff.1 g4
  obtain ⟨ts6, h6, g6⟩ := Option.bind_eq_some_iff.1 g5
  cases g6
  have e2 := expectId_inv h2
  have e3 := expect_inv h3
  have e5 := expect_inv h5
  try dsimp only at e2 e3 e5
  rw [parseTypeRef_inv h1, e2, e3, parseTypeRef_inv h4, e5, expect_inv h6]
  simp [CMethod.tokens]

theorem mode_reads (m : Option TopicMode) (r : List Token) : topicMode (modeTokens m ++ .keyword .topic :: r) = (m, .keyword .topic :: r) := by
  rcases m with _ | m
  · rfl
  · cases m <;> rfl

theorem message_reads {m : CMessage} (hg : m.topic.Grouped) (r : List Token) : pubsubMessage (m.tokens ++ r) = some (m, r) := by
  simp only [CMessage.tokens, List.append_assoc, List.cons_append, List.nil_append, pubsubMessage]
  rw [mode_reads]
  simp only [expectKeyword_keyword, bind, Option.bind, expect_sym]
  rw [C81_reads m.topic hg (.sym .rparen :: _) rfl]
  simp only [expect_sym]
  rw [namedType_reads]
  rfl

theorem message_inv {ts r : List Token} {m : CMessage} (h : pubsubMessage ts = some (m, r)) : ts = m.tokens ++ r := by
  unfold pubsubMessage at h
  have hm : ts = modeTokens (topicMode ts).1 ++ (topicMode ts).2 := by
    unfold topicMode
    split <;> rfl
  rcases he : topicMode ts with ⟨o, ts0⟩
  rw [he] at h hm
  dsimp only at h hm
  obtain ⟨ts1, h1, g1⟩ := Option.bind_eq_some_iff.1 h
  obtain ⟨ts2, h2, g2⟩ := Option.bind_eq_some_iff.1 g1
  obtain ⟨⟨e, ts3⟩, h3, g3⟩ := Option.bind_eq_some_iff.1 g2
  obtain ⟨ts4, h4, g4⟩ := Option.bind_eq_some_iff.1 g3
  obtain ⟨⟨⟨t, n⟩, ts5⟩, h5, g5⟩ := Option.bind_eq_some_iff.1 g4
  cases g5
  have e4 := expect_inv h4
  try dsimp only at e4
  rw [hm, expectKeyword_inv h1, expect_inv h2, (C81_read h3).1, e4, namedType_inv h5]
  simp [CMessage.tokens]

theorem message_ne_rbrace (m : CMessage) (r ts : List Token) : m.tokens ++ r ≠ .sym .rbrace :: ts := by
  rcases m with ⟨o, e, t, n⟩
  rcases o with _ | o
  · simp [CMessage.tokens, modeTokens]
  · cases o <;> simp [CMessage.tokens, modeTokens]

/-! ## Declarations -/

theorem other_reads {d : COther} (hd : (CDirective.other d).Readable) (rest : List Token) :
    languageDirective (d.tokens ++ rest) = some (.other d, rest) := by
  cases d with
  | sqlTable name params module fields constraint rowId =>
    simp only [COther.tokens, List.cons_append, List.append_assoc, List.nil_append, languageDirective, sqlTableDeclaration, expectId_id]
    simp only [bind, Option.bind]
    rw [templateParams_reads params (by cases module <;> simp [usingTokens])]
    dsimp only
    rw [using_reads module (by simp)]
    simp only [expect_sym]
    have := many_reads' (item := sqlTableField) (tok := CSqlField.tokens) (members_end constraint rowId (.sym .semicolon :: rest)) fields
      (fun f hf r => ⟨sqlField_begins f r, sqlField_reads (hd.1 f hf).1 (hd.1 f hf).2 r⟩)
      (fun f _ => by intro h; have := congrArg List.length h; simp [CSqlField.tokens] at this)
    rw [show (if rowId = true then [Token.keyword .sqlWithoutRowid, .sym .semicolon] else []) = rowIdTokens rowId from rfl, this]
    dsimp only
    rw [tableConstraint_reads hd.2 (rowId_no_sql rowId _)]
    dsimp only
    rw [rowId_reads]
    simp only [closeDecl_reads]
    rfl
  | sqlDatabase name fields =>
    simp only [COther.tokens, List.cons_append, List.append_assoc, List.nil_append, languageDirective, sqlDatabaseDefinition, expectId_id]
    simp only [bind, Option.bind, expect_sym]
    rw [many_reads' (item := sqlDatabaseField) (tok := CSqlTableRef.tokens) rfl fields
      (fun f hf r => ⟨notClosed_of (by simp only [CSqlTableRef.tokens, List.append_assoc]; exact inst_ne_rbrace _ _), tableRef_reads (hd.2 f hf) r⟩)
      (fun f _ => by simp [CSqlTableRef.tokens])]
    dsimp only
    rw [if_neg (by simpa using hd.1), closeDecl_reads]
    rfl
  | service name methods =>
    simp only [COther.tokens, List.cons_append, List.append_assoc, List.nil_append, languageDirective, serviceDefinition, expectId_id]
    simp only [bind, Option.bind, expect_sym]
    rw [many_reads' (item := serviceMethod) (tok := CMethod.tokens) rfl methods
      (fun m _ r => ⟨notClosed_of (by simp only [CMethod.tokens, List.append_assoc]; exact typeRef_ne_rbrace _ _), method_reads m r⟩)
      (fun m _ => by simp [CMethod.tokens])]
    simp only [closeDecl_reads]
    rfl
  | pubsub name messages =>
    simp only [COther.tokens, List.cons_append, List.append_assoc, List.nil_append, languageDirective, pubsubDefinition, expectId_id]
    simp only [bind, Option.bind, expect_sym]
    rw [many_reads' (item := pubsubMessage) (tok := CMessage.tokens) rfl messages
      (fun m hm r => ⟨notClosed_of (message_ne_rbrace m r), message_reads (hd m hm) r⟩)
      (fun m _ => by simp [CMessage.tokens])]
    simp only [closeDecl_reads]
    rfl
  | ruleGroup name rules =>
    simp only [COther.tokens, List.cons_append, List.append_assoc, List.nil_append, languageDirective, ruleGroupDefinition, expectId_id]
    simp only [bind, Option.bind, expect_sym]
    rw [many_reads' (begins := beginsKeyword .rule) (item := ruleDefinition)
      (tok := fun e => Token.keyword .rule :: (CExpr.tokens e ++ [Token.sym .semicolon])) rfl rules
      (fun e he r => ⟨rfl, rule_reads (hd e he) r⟩) (fun e _ => by simp)]
    simp only [closeDecl_reads]
    rfl

theorem sqlTable_inv {ts rest : List Token} {d : CDirective} (h : sqlTableDeclaration ts = some (d, rest)) :
    ∃ o : COther, d = .other o ∧ o.Complete ∧ .keyword .sqlTable :: ts = o.tokens ++ rest := by
  obtain ⟨⟨n, ts1⟩, h1, g1⟩ := Option.bind_eq_some_iff.1 h
  obtain ⟨⟨ps, ts2⟩, h2, g2⟩ := Option.bind_eq_some_iff.1 g1
  obtain ⟨⟨m, ts3⟩, h3, g3⟩ := Option.bind_eq_some_iff.1 g2
  obtain ⟨ts4, h4, g4⟩ := Option.bind_eq_some_iff.1 g3
  obtain ⟨⟨fs, ts5⟩, h5, g5⟩ := Option.bind_eq_some_iff.1 g4
  obtain ⟨⟨c, ts6⟩, h6, g6⟩ := Option.bind_eq_some_iff.1 g5
  obtain ⟨⟨b, ts7⟩, h7, g7⟩ := Option.bind_eq_some_iff.1 g6
  obtain ⟨ts8, h8, g8⟩ := Option.bind_eq_some_iff.1 g7
  cases g8
  refine ⟨_, rfl, trivial, ?_⟩
  have e2 := templateParams_inv h2
  have e3 := using_inv h3
  have e4 := expect_inv h4
  have e6 := tableConstraint_inv h6
  have e7 := rowId_inv h7
  have e8 := closeDecl_inv h8
  try dsimp only at e2 e3 e4 e6 e7 e8
  rw [expectId_inv h1, e2, e3, e4, many_inv' (fun ts e r => sqlField_inv) h5, e6, e7, e8]
  simp [COther.tokens, rowIdTokens]

theorem sqlDatabase_inv {ts rest : List Token} {d : CDirective} (h : sqlDatabaseDefinition ts = some (d, rest)) :
    ∃ o : COther, d = .other o ∧ o.Complete ∧ .keyword .sqlDatabase :: ts = o.tokens ++ rest := by
  obtain ⟨⟨n, ts1⟩, h1, g1⟩ := Option.bind_eq_some_iff.1 h
  obtain ⟨ts2, h2, g2⟩ := Option.bind_eq_some_iff.1 g1
  obtain ⟨⟨fs, ts3⟩, h3, g3⟩ := Option.bind_eq_some_iff.1 g2
  dsimp only at g3
  split at g3
  · cases g3
  · rename_i hne
    obtain ⟨ts4, h4, g4⟩ := Option.bind_eq_some_iff.1 g3
    cases g4
    refine ⟨_, rfl, fun hc => hne (List.isEmpty_iff.2 hc), ?_⟩
    have e2 := expect_inv h2
    try dsimp only at e2
    rw [expectId_inv h1, e2, many_inv' (fun ts e r => tableRef_inv) h3, closeDecl_inv h4]
    simp [COther.tokens]

theorem service_inv {ts rest : List Token} {d : CDirective} (h : serviceDefinition ts = some (d, rest)) :
    ∃ o : COther, d = .other o ∧ o.Complete ∧ .keyword .service :: ts = o.tokens ++ rest := by
  obtain ⟨⟨n, ts1⟩, h1, g1⟩ := Option.bind_eq_some_iff.1 h
  obtain ⟨ts2, h2, g2⟩ := Option.bind_eq_some_iff.1 g1
  obtain ⟨⟨fs, ts3⟩, h3, g3⟩ := Option.bind_eq_some_iff.1 g2
  obtain ⟨ts4, h4, g4⟩ := Option.bind_eq_some_iff.1 g3
  cases g4
  refine ⟨_, rfl, trivial, ?_⟩
  have e2 := expect_inv h2
  try dsimp only at e2
  rw [expectId_inv h1, e2, many_inv' (fun ts e r => method_inv) h3, closeDecl_inv h4]
  simp [COther.tokens]

theorem pubsub_inv {ts rest : List Token} {d : CDirective} (h : pubsubDefinition ts = some (d, rest)) :
    ∃ o : COther, d = .other o ∧ o.Complete ∧ .keyword .pubsub :: ts = o.tokens ++ rest := by
  obtain ⟨⟨n, ts1⟩, h1, g1⟩ := Option.bind_eq_some_iff.1 h
  obtain ⟨ts2, h2, g2⟩ := Option.bind_eq_some_iff.1 g1
  obtain ⟨⟨fs, ts3⟩, h3, g3⟩ := Option.bind_eq_some_iff.1 g2
  obtain ⟨ts4, h4, g4⟩ := Option.bind_eq_some_iff.1 g3
  cases g4
  refine ⟨_, rfl, trivial, ?_⟩
  have e2 := expect_inv h2
  try dsimp only at e2
  rw [expectId_inv h1, e2, many_inv' (fun ts e r => message_inv) h3, closeDecl_inv h4]
  simp [COther.tokens]

theorem ruleGroup_inv {ts rest : List Token} {d : CDirective} (h : ruleGroupDefinition ts = some (d, rest)) :
    ∃ o : COther, d = .other o ∧ o.Complete ∧ .keyword .ruleGroup :: ts = o.tokens ++ rest := by
  obtain ⟨⟨n, ts1⟩, h1, g1⟩ := Option.bind_eq_some_iff.1 h
  obtain ⟨ts2, h2, g2⟩ := Option.bind_eq_some_iff.1 g1
  obtain ⟨⟨fs, ts3⟩, h3, g3⟩ := Option.bind_eq_some_iff.1 g2
  obtain ⟨ts4, h4, g4⟩ := Option.bind_eq_some_iff.1 g3
  cases g4
  refine ⟨_, rfl, trivial, ?_⟩
  have e2 := expect_inv h2
  try dsimp only at e2
  rw [expectId_inv h1, e2, many_inv' (fun ts e r => rule_inv) h3, closeDecl_inv h4]
  simp [COther.tokens]

end Verif
