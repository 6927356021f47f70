import Verif.Props.DeclFields
import Verif.Props.DeclOffsets
import Verif.Props.DeclOthers
import Verif.Props.Lexer

/-!
# Packages are read as they are written (C85)
-/

namespace Verif

theorem beginsField_of {ts : List Token} (h1 : ∀ r, ts ≠ .keyword .function :: r) (h2 : ∀ r, ts ≠ .sym .rbrace :: r) :
    beginsField ts = true := by
  unfold beginsField
  split
  · exact absurd rfl (h1 _)
  · exact absurd rfl (h2 _)
  · rfl

theorem field_begins (f : CField) (r : List Token) : beginsField (f.tokens ++ r) = true := by
  refine beginsField_of ?_ ?_ <;>
  · intro ts h
    simp only [CField.tokens, List.append_assoc] at h
    cases ha : f.alignment with
    | some e => rw [ha] at h; cases h
    | none =>
      rw [ha] at h
      cases ho : f.offset with
      | some e =>
        rw [ho] at h
        obtain ⟨t, ts', ht, -, -, -, -, -, h1, h2⟩ := tokens_head e
        simp only [alignmentTokens, offsetTokens, ht, List.nil_append, List.cons_append, List.cons.injEq] at h
        first | exact h1 h.1 | exact h2 h.1
      | none =>
        rw [ho] at h
        first | exact body_no_keyword f (by simp) rfl _ _ h | exact body_ne_rbrace f _ _ h

theorem field_tokens_ne (f : CField) : f.tokens ≠ [] := by
  intro h
  obtain ⟨b, hb, -⟩ := body_semicolon f
  simp [CField.tokens, hb] at h

theorem choiceField_begins (f : CChoiceField) (r : List Token) : beginsField (f.tokens ++ .sym .semicolon :: r) = true := by
  simp only [CChoiceField.tokens, List.append_assoc]
  rcases typeId_head f.typeId with ⟨n, ts, h⟩ | ⟨k, ts, h, hk⟩
  · rw [h]; rfl
  · rw [h]
    refine beginsField_of ?_ (by simp)
    intro r hr
    cases hr
    rcases hk with hk | hk | hk <;> simp [Keyword.builtinWord] at hk

/-! ## Enums and bitmasks -/

theorem items_reads {α : Type} {item : List Token → Option (α × List Token)} {tok : α → List Token} {P : List Token → Prop}
    (hc : ∀ ts, P (.sym .comma :: ts)) (hb : ∀ ts, P (.sym .rbrace :: ts)) (hne : ∀ x r ts, tok x ++ r ≠ .sym .rbrace :: ts)
    (rest : List Token) {as : List α} (trailing : Bool) :
    ∀ (a : α) (n : Nat), (∀ x ∈ a :: as, ∀ r, P r → item (tok x ++ r) = some (x, r)) → as.length < n →
      itemsEnd item n (tok a ++ (afterCommas tok as ++ ((if trailing then [.sym .comma] else []) ++ .sym .rbrace :: .sym .semicolon :: rest))) =
        some (a :: as, rest) := by
  induction as with
  | nil =>
    intro a n h hn
    cases n with
    | zero => exact absurd hn (by simp)
    | succ n =>
      rw [itemsEnd]
      cases trailing
      · simp only [afterCommas, List.flatMap_nil, List.nil_append, Bool.false_eq_true, if_false]
        rw [h a (by simp) _ (hb _)]
        rfl
      · simp only [afterCommas, List.flatMap_nil, List.nil_append, if_true, List.cons_append]
        rw [h a (by simp) _ (hc _)]
        rfl
  | cons b bs ih =>
    intro a n h hn
    cases n with
    | zero => exact absurd hn (by simp)
    | succ n =>
      rw [itemsEnd]
      simp only [afterCommas, List.flatMap_cons, List.cons_append, List.append_assoc]
      rw [h a (by simp) _ (hc _)]
      have := ih b n (fun x hx => h x (List.mem_cons_of_mem _ hx)) (by simp at hn; omega)
      simp only [afterCommas] at this
      simp only [bind, Option.bind]
      split
      · rename_i heq; simp only [List.cons.injEq, true_and] at heq; exact absurd heq (hne _ _ _)
      · rename_i heq; cases heq
      · rename_i heq
        simp only [List.cons.injEq, true_and] at heq
        rw [← heq, this]
        rfl
      · rename_i h3; exact (h3 _ rfl).elim

theorem items_inv {α : Type} {item : List Token → Option (α × List Token)} {tok : α → List Token}
    (h : ∀ ts a r, item ts = some (a, r) → ts = tok a ++ r) (n : Nat) :
    ∀ (ts : List Token) (as : List α) (rest : List Token), itemsEnd item n ts = some (as, rest) →
      ∃ w, ItemsWritten tok as (.sym .lbrace :: w) ∧ ts = w ++ rest := by
  induction n with
  | zero => intro ts as rest h; cases h
  | succ n ih =>
    intro ts as rest hi
    rw [itemsEnd] at hi
    obtain ⟨⟨a, ts1⟩, h1, h2⟩ := Option.bind_eq_some_iff.1 hi
    have e1 := h _ _ _ h1
    dsimp only at h2
    split at h2
    · cases h2
      exact ⟨_, .comma a [], by rw [e1]; simp [afterCommas]⟩
    · cases h2
      exact ⟨_, .plain a [], by rw [e1]; simp [afterCommas]⟩
    · obtain ⟨⟨more, ts3⟩, h3, h4⟩ := Option.bind_eq_some_iff.1 h2
      cases h4
      obtain ⟨w, hw, h5⟩ := ih _ _ _ h3
      generalize hv : Token.sym .lbrace :: w = v at hw
      cases hw with
      | plain b bs =>
        cases hv
        exact ⟨_, .plain a (b :: bs), by rw [e1, h5]; simp [afterCommas]⟩
      | comma b bs =>
        cases hv
        exact ⟨_, .comma a (b :: bs), by rw [e1, h5]; simp [afterCommas]⟩
    · cases h2

theorem mark_cases (m : Option EnumMark) (n : Ident) (r : List Token) :
    enumMark (markTokens m ++ .id n :: r) = (m, .id n :: r) := by
  rcases m with _ | m
  · rfl
  · cases m <;> rfl

theorem enumItem_reads {i : CEnumItem} (hg : OptGrouped i.value) {rest : List Token} (hr : Ends rest)
    (hs : ∀ ts, rest ≠ .sym .assign :: ts) : enumItem (i.tokens ++ rest) = some (i, rest) := by
  simp only [CEnumItem.tokens, List.append_assoc, List.cons_append, enumItem]
  rw [mark_cases]
  simp only [expectId_id, bind, Option.bind, clause_reads hg hr hs]
  rfl

theorem enumItem_inv {ts rest : List Token} {i : CEnumItem} (h : enumItem ts = some (i, rest)) : ts = i.tokens ++ rest := by
  unfold enumItem at h
  have hm : ts = markTokens (enumMark ts).1 ++ (enumMark ts).2 := by
    unfold enumMark
    split <;> rfl
  rcases he : enumMark ts with ⟨m, ts0⟩
  rw [he] at h hm
  dsimp only at h hm
  obtain ⟨⟨n, ts1⟩, h1, h2⟩ := Option.bind_eq_some_iff.1 h
  obtain ⟨⟨v, ts2⟩, h3, h4⟩ := Option.bind_eq_some_iff.1 h2
  cases h4
  have e2 : ts1 = _ := clause_inv h3
  rw [hm, expectId_inv h1, e2]
  simp only [CEnumItem.tokens, List.append_assoc, List.cons_append]

theorem bitmaskItem_reads {i : CBitmaskValue} (hg : OptGrouped i.value) {rest : List Token} (hr : Ends rest)
    (hs : ∀ ts, rest ≠ .sym .assign :: ts) : bitmaskItem (i.tokens ++ rest) = some (i, rest) := by
  simp only [CBitmaskValue.tokens, List.cons_append, bitmaskItem]
  simp only [expectId_id, bind, Option.bind, clause_reads hg hr hs]
  rfl

theorem bitmaskItem_inv {ts rest : List Token} {i : CBitmaskValue} (h : bitmaskItem ts = some (i, rest)) : ts = i.tokens ++ rest := by
  obtain ⟨⟨n, ts1⟩, h1, h2⟩ := Option.bind_eq_some_iff.1 h
  obtain ⟨⟨v, ts2⟩, h3, h4⟩ := Option.bind_eq_some_iff.1 h2
  cases h4
  have e2 := clause_inv h3
  rw [expectId_inv h1, e2]
  simp [CBitmaskValue.tokens]

theorem enumItem_ne_rbrace (i : CEnumItem) (r ts : List Token) : i.tokens ++ r ≠ .sym .rbrace :: ts := by
  rcases i with ⟨m, n, v⟩
  rcases m with _ | m
  · simp [CEnumItem.tokens, markTokens]
  · cases m <;> simp [CEnumItem.tokens, markTokens]

/-! ## Declarations -/

theorem written_reads {d : CDirective} (hd : d.Readable) {ts : List Token} (h : DirectiveWritten d ts) (rest : List Token) :
    languageDirective (ts ++ rest) = some (d, rest) := by
  cases h with
  | const type name value =>
    simp only [List.cons_append, List.append_assoc, List.nil_append, languageDirective, constDefinition]
    rw [inst_reads hd.1 rfl]
    simp only [bind, Option.bind, expectId_id, expect_sym, C81_reads value hd.2 (.sym .semicolon :: rest) rfl]
    rfl
  | subtype type name =>
    simp only [List.cons_append, List.append_assoc, List.nil_append, languageDirective, namedType]
    rw [parseTypeRef_reads type (rest := .id name :: _) trivial]
    simp
  | instantiate type name =>
    simp only [List.cons_append, List.append_assoc, List.nil_append, languageDirective, namedType]
    rw [parseTypeRef_reads type (rest := .id name :: _) trivial]
    simp
  | «structure» head fields functions =>
    simp only [List.cons_append, List.append_assoc, languageDirective, structureDeclaration]
    rw [head_reads head (by simp) (by simp)]
    simp only [bind, Option.bind, expect_sym]
    rw [many_reads' (end_no_field functions rest) fields (fun f hf r => ⟨field_begins f r, field_reads (hd.1 f hf) r⟩)
      (fun f _ => field_tokens_ne f)]
    dsimp only
    rw [functionsEnd_reads hd.2]
    rfl
  | union head fields functions =>
    simp only [List.cons_append, List.append_assoc, languageDirective, unionDeclaration]
    rw [head_reads head (by simp) (by simp)]
    simp only [bind, Option.bind, expect_sym]
    rw [many_reads' (item := unionField) (tok := fun f => CChoiceField.tokens f ++ [Token.sym .semicolon]) (end_no_field functions rest) fields
      (fun f hf r => by
        simp only [List.append_assoc, List.cons_append, List.nil_append]
        exact ⟨choiceField_begins f r, unionField_reads (hd.1 f hf) r⟩)
      (fun f _ => by simp)]
    dsimp only
    rw [functionsEnd_reads hd.2]
    rfl
  | choice head selector cases dflt functions _ =>
    obtain ⟨h1, h2, h3, h4, h5⟩ := hd
    simp only [List.cons_append, List.append_assoc, languageDirective, choiceDeclaration]
    rw [head_reads head (by simp) (by simp)]
    simp only [bind, Option.bind, expectKeyword_keyword]
    rw [if_neg (by simpa using h1), C81_reads selector h2 (.sym .lbrace :: _) rfl]
    simp only [expect_sym]
    rw [many_reads' (default_no_case dflt functions rest) cases (fun c hc r => ⟨rfl, cases_reads (h3 c hc) r⟩)
      (fun c _ => by simp [CChoiceCases.tokens, caseTokens])]
    dsimp only
    rw [default_reads h4 (end_no_keyword functions (by simp) rest)]
    dsimp only
    rw [functionsEnd_reads h5]
    rfl
  | enum type name items ts h =>
    simp only [List.cons_append, List.append_assoc, languageDirective, enumDeclaration]
    cases h with
    | plain a as =>
      rw [inst_reads hd.1 rfl]
      simp only [bind, Option.bind, expectId_id, List.cons_append, expect_sym, List.append_assoc, List.nil_append]
      have := items_reads (P := fun r => Ends r ∧ ∀ ts, r ≠ .sym .assign :: ts) (item := enumItem) (tok := CEnumItem.tokens)
        (fun _ => ⟨rfl, by simp⟩) (fun _ => ⟨rfl, by simp⟩) enumItem_ne_rbrace rest false a _
        (fun x hx r hr => enumItem_reads (hd.2 x hx) hr.1 hr.2)
        (by have := afterCommas_length CEnumItem.tokens as
            show as.length < (CEnumItem.tokens a ++ (afterCommas CEnumItem.tokens as ++ .sym .rbrace :: .sym .semicolon :: rest)).length + 1
            simp only [List.length_append]; omega)
      simp only [Bool.false_eq_true, if_false, List.nil_append] at this
      rw [this]
      rfl
    | comma a as =>
      rw [inst_reads hd.1 rfl]
      simp only [bind, Option.bind, expectId_id, List.cons_append, expect_sym, List.append_assoc, List.nil_append]
      have := items_reads (P := fun r => Ends r ∧ ∀ ts, r ≠ .sym .assign :: ts) (item := enumItem) (tok := CEnumItem.tokens)
        (fun _ => ⟨rfl, by simp⟩) (fun _ => ⟨rfl, by simp⟩) enumItem_ne_rbrace rest true a _
        (fun x hx r hr => enumItem_reads (hd.2 x hx) hr.1 hr.2)
        (by have := afterCommas_length CEnumItem.tokens as
            show as.length < (CEnumItem.tokens a ++ (afterCommas CEnumItem.tokens as ++ .sym .comma :: .sym .rbrace :: .sym .semicolon :: rest)).length + 1
            simp only [List.length_append]; omega)
      simp only [if_true, List.cons_append, List.nil_append] at this
      rw [this]
      rfl
  | bitmask type name values ts h =>
    simp only [List.cons_append, List.append_assoc, languageDirective, bitmaskDeclaration]
    have hne : ∀ (x : CBitmaskValue) (r ts : List Token), x.tokens ++ r ≠ .sym .rbrace :: ts := by simp [CBitmaskValue.tokens]
    cases h with
    | plain a as =>
      rw [inst_reads hd.1 rfl]
      simp only [bind, Option.bind, expectId_id, List.cons_append, expect_sym, List.append_assoc, List.nil_append]
      have := items_reads (P := fun r => Ends r ∧ ∀ ts, r ≠ .sym .assign :: ts) (item := bitmaskItem) (tok := CBitmaskValue.tokens)
        (fun _ => ⟨rfl, by simp⟩) (fun _ => ⟨rfl, by simp⟩) hne rest false a _
        (fun x hx r hr => bitmaskItem_reads (hd.2 x hx) hr.1 hr.2)
        (by have := afterCommas_length CBitmaskValue.tokens as
            show as.length < (CBitmaskValue.tokens a ++ (afterCommas CBitmaskValue.tokens as ++ .sym .rbrace :: .sym .semicolon :: rest)).length + 1
            simp only [List.length_append]; omega)
      simp only [Bool.false_eq_true, if_false, List.nil_append] at this
      rw [this]
      rfl
    | comma a as =>
      rw [inst_reads hd.1 rfl]
      simp only [bind, Option.bind, expectId_id, List.cons_append, expect_sym, List.append_assoc, List.nil_append]
      have := items_reads (P := fun r => Ends r ∧ ∀ ts, r ≠ .sym .assign :: ts) (item := bitmaskItem) (tok := CBitmaskValue.tokens)
        (fun _ => ⟨rfl, by simp⟩) (fun _ => ⟨rfl, by simp⟩) hne rest true a _
        (fun x hx r hr => bitmaskItem_reads (hd.2 x hx) hr.1 hr.2)
        (by have := afterCommas_length CBitmaskValue.tokens as
            show as.length < (CBitmaskValue.tokens a ++ (afterCommas CBitmaskValue.tokens as ++ .sym .comma :: .sym .rbrace :: .sym .semicolon :: rest)).length + 1
            simp only [List.length_append]; omega)
      simp only [if_true, List.cons_append, List.nil_append] at this
      rw [this]
      rfl
  | other d _ => exact other_reads hd rest

theorem written_inv {ts rest : List Token} {d : CDirective} (h : languageDirective ts = some (d, rest)) :
    ∃ w, DirectiveWritten d w ∧ ts = w ++ rest := by
  unfold languageDirective at h
  split at h
  · obtain ⟨⟨t, ts1⟩, h1, g1⟩ := Option.bind_eq_some_iff.1 h
    obtain ⟨⟨n, ts2⟩, h2, g2⟩ := Option.bind_eq_some_iff.1 g1
    obtain ⟨ts3, h3, g3⟩ := Option.bind_eq_some_iff.1 g2
    obtain ⟨⟨e, ts4⟩, h4, g4⟩ := Option.bind_eq_some_iff.1 g3
    obtain ⟨ts5, h5, g5⟩ := Option.bind_eq_some_iff.1 g4
    cases g5
    refine ⟨_, .const t n e, ?_⟩
    have e2 := expectId_inv h2
    rw [inst_inv h1, e2, expect_inv h3, (C81_read h4).1, expect_inv h5]
    simp
  · obtain ⟨⟨⟨t, n⟩, ts1⟩, h1, g1⟩ := Option.map_eq_some_iff.1 h
    cases g1
    exact ⟨_, .subtype t n, by rw [namedType_inv h1]; simp⟩
  · obtain ⟨⟨⟨t, n⟩, ts1⟩, h1, g1⟩ := Option.map_eq_some_iff.1 h
    cases g1
    exact ⟨_, .instantiate t n, by rw [namedType_inv h1]; simp⟩
  · obtain ⟨⟨d, ts1⟩, h1, g1⟩ := Option.bind_eq_some_iff.1 h
    obtain ⟨ts2, h2, g2⟩ := Option.bind_eq_some_iff.1 g1
    obtain ⟨⟨fs, ts3⟩, h3, g3⟩ := Option.bind_eq_some_iff.1 g2
    obtain ⟨⟨gs, ts4⟩, h4, g4⟩ := Option.bind_eq_some_iff.1 g3
    cases g4
    refine ⟨_, .structure d fs gs, ?_⟩
    rw [head_inv h1, expect_inv h2, many_inv' (fun ts e r => field_inv) h3, functionsEnd_inv h4]
    simp
  · obtain ⟨⟨d, ts1⟩, h1, g1⟩ := Option.bind_eq_some_iff.1 h
    dsimp only at g1
    split at g1
    · cases g1
    · rename_i hne
      obtain ⟨ts2, h2, g2⟩ := Option.bind_eq_some_iff.1 g1
      obtain ⟨⟨s, ts3⟩, h3, g3⟩ := Option.bind_eq_some_iff.1 g2
      obtain ⟨ts4, h4, g4⟩ := Option.bind_eq_some_iff.1 g3
      obtain ⟨⟨cs, ts5⟩, h5, g5⟩ := Option.bind_eq_some_iff.1 g4
      obtain ⟨⟨o, ts6⟩, h6, g6⟩ := Option.bind_eq_some_iff.1 g5
      obtain ⟨⟨gs, ts7⟩, h7, g7⟩ := Option.bind_eq_some_iff.1 g6
      cases g7
      refine ⟨_, .choice d s cs o gs (fun hc => hne (List.isEmpty_iff.2 hc)), ?_⟩
      have e4 : ts3 = _ := expect_inv h4
      have e6 : ts5 = _ := default_inv h6
      have e7 : ts6 = _ := functionsEnd_inv h7
      rw [head_inv h1, expectKeyword_inv h2, (C81_read h3).1, e4, many_inv' (fun ts e r => cases_inv) h5, e6, e7]
      simp
  · obtain ⟨⟨d, ts1⟩, h1, g1⟩ := Option.bind_eq_some_iff.1 h
    obtain ⟨ts2, h2, g2⟩ := Option.bind_eq_some_iff.1 g1
    obtain ⟨⟨fs, ts3⟩, h3, g3⟩ := Option.bind_eq_some_iff.1 g2
    obtain ⟨⟨gs, ts4⟩, h4, g4⟩ := Option.bind_eq_some_iff.1 g3
    cases g4
    refine ⟨_, .union d fs gs, ?_⟩
    rw [head_inv h1, expect_inv h2,
      many_inv' (tok := fun f => CChoiceField.tokens f ++ [.sym .semicolon]) (fun ts e r hh => by rw [unionField_inv hh]; simp) h3,
      functionsEnd_inv h4]
    simp
  · obtain ⟨⟨t, ts1⟩, h1, g1⟩ := Option.bind_eq_some_iff.1 h
    obtain ⟨⟨n, ts2⟩, h2, g2⟩ := Option.bind_eq_some_iff.1 g1
    obtain ⟨ts3, h3, g3⟩ := Option.bind_eq_some_iff.1 g2
    obtain ⟨⟨is, ts4⟩, h4, g4⟩ := Option.bind_eq_some_iff.1 g3
    cases g4
    obtain ⟨w, hw, e4⟩ := items_inv (tok := CEnumItem.tokens) (fun ts e r => enumItem_inv) _ _ _ _ h4
    refine ⟨_, .enum t n is _ hw, ?_⟩
    have e2 := expectId_inv h2
    rw [inst_inv h1, e2, expect_inv h3, e4]
    simp
  · obtain ⟨⟨t, ts1⟩, h1, g1⟩ := Option.bind_eq_some_iff.1 h
    obtain ⟨⟨n, ts2⟩, h2, g2⟩ := Option.bind_eq_some_iff.1 g1
    obtain ⟨ts3, h3, g3⟩ := Option.bind_eq_some_iff.1 g2
    obtain ⟨⟨is, ts4⟩, h4, g4⟩ := Option.bind_eq_some_iff.1 g3
    cases g4
    obtain ⟨w, hw, e4⟩ := items_inv (tok := CBitmaskValue.tokens) (fun ts e r => bitmaskItem_inv) _ _ _ _ h4
    refine ⟨_, .bitmask t n is _ hw, ?_⟩
    have e2 := expectId_inv h2
    rw [inst_inv h1, e2, expect_inv h3, e4]
    simp
  · obtain ⟨o, rfl, hc, e⟩ := sqlTable_inv h
    exact ⟨_, .other o hc, e⟩
  · obtain ⟨o, rfl, hc, e⟩ := sqlDatabase_inv h
    exact ⟨_, .other o hc, e⟩
  · obtain ⟨o, rfl, hc, e⟩ := service_inv h
    exact ⟨_, .other o hc, e⟩
  · obtain ⟨o, rfl, hc, e⟩ := pubsub_inv h
    exact ⟨_, .other o hc, e⟩
  · obtain ⟨o, rfl, hc, e⟩ := ruleGroup_inv h
    exact ⟨_, .other o hc, e⟩
  · cases h

/-! ## Packages -/

theorem compatibility_reads (o : Option (List Char)) {rest : List Token} (hr : ∀ ts, rest ≠ .keyword .compatVersion :: ts) :
    compatibilityVersion (compatibilityTokens o ++ rest) = some (o, rest) := by
  cases o with
  | some t => rfl
  | none =>
    simp only [compatibilityTokens, List.nil_append]
    unfold compatibilityVersion
    split
    · exact absurd rfl (hr _)
    · exact absurd rfl (hr _)
    · rfl

theorem compatibility_inv {ts rest : List Token} {o : Option (List Char)} (h : compatibilityVersion ts = some (o, rest)) :
    ts = compatibilityTokens o ++ rest := by
  unfold compatibilityVersion at h
  split at h
  · cases h; rfl
  · cases h
  · cases h; rfl

theorem packageName_reads (o : Option (Ident × List Ident)) {rest : List Token} (hr : ∀ ts, rest ≠ .keyword .package :: ts) :
    packageName (packageNameTokens o ++ rest) = some (o, rest) := by
  rcases o with _ | ⟨first, more⟩
  · simp only [packageNameTokens, List.nil_append]
    unfold packageName
    split
    · exact absurd rfl (hr _)
    · rfl
  · simp only [packageNameTokens, List.cons_append, List.append_assoc, List.nil_append, packageName, expectId_id]
    simp only [bind, Option.bind]
    rw [dotIds_reads more (by simp)]
    simp

theorem packageName_inv {ts rest : List Token} {o : Option (Ident × List Ident)} (h : packageName ts = some (o, rest)) :
    ts = packageNameTokens o ++ rest := by
  unfold packageName at h
  split at h
  · obtain ⟨⟨n, ts1⟩, h1, g1⟩ := Option.bind_eq_some_iff.1 h
    dsimp only at g1
    obtain ⟨ts2, h2, g2⟩ := Option.bind_eq_some_iff.1 g1
    cases g2
    have e1 := dotIds_inv ts1
    rw [expect_inv h2] at e1
    rw [expectId_inv h1]
    simp only [packageNameTokens, List.cons_append, List.append_assoc, List.nil_append]
    rw [← e1]
  · cases h; rfl

/-- The last part of an import. -/
def lastToken : Option Ident → Token
  | some n => .id n
  | none => .sym .multiply

theorem importPath_reads (middle : List Ident) (last : Option Ident) (rest : List Token) :
    importPath (middle.flatMap (fun n => [.id n, .sym .dot]) ++ lastToken last :: .sym .semicolon :: rest) =
      some ((middle, last), .sym .semicolon :: rest) := by
  induction middle with
  | nil => cases last <;> rfl
  | cons n ns ih => simp [importPath, ih]

theorem importPath_inv {ts : List Token} : ∀ {rest : List Token} {middle : List Ident} {last : Option Ident},
    importPath ts = some ((middle, last), rest) → ts = middle.flatMap (fun n => [.id n, .sym .dot]) ++ lastToken last :: rest := by
  induction ts using importPath.induct with
  | case1 ts => intro rest middle last h; rw [importPath] at h; cases h; rfl
  | case2 name ts ih =>
    intro rest middle last h
    rw [importPath] at h
    obtain ⟨⟨⟨m, l⟩, ts1⟩, h1, g1⟩ := Option.bind_eq_some_iff.1 h
    cases g1
    rw [ih h1]
    simp
  | case3 name ts hn =>
    intro rest middle last h
    rw [importPath] at h
    · cases h; rfl
    · exact hn
  | case4 ts h1 h2 h3 =>
    intro rest middle last h
    rw [importPath] at h
    · cases h
    all_goals assumption

theorem CImport.tokens_eq (i : CImport) : i.tokens = .keyword .import :: .id i.first :: .sym .dot ::
    (i.middle.flatMap (fun n => [.id n, .sym .dot]) ++ [lastToken i.last, .sym .semicolon]) := by
  rcases i with ⟨f, m, l⟩
  cases l <;> rfl

theorem import_reads (i : CImport) (rest : List Token) : importDeclaration (i.tokens ++ rest) = some (i, rest) := by
  rw [CImport.tokens_eq]
  simp only [List.cons_append, List.append_assoc, List.nil_append, importDeclaration, expectKeyword_keyword]
  simp only [bind, Option.bind, expectId_id, expect_sym, importPath_reads]
  rfl

theorem import_inv {ts rest : List Token} {i : CImport} (h : importDeclaration ts = some (i, rest)) : ts = i.tokens ++ rest := by
  obtain ⟨ts1, h1, g1⟩ := Option.bind_eq_some_iff.1 h
  obtain ⟨⟨n, ts2⟩, h2, g2⟩ := Option.bind_eq_some_iff.1 g1
  obtain ⟨ts3, h3, g3⟩ := Option.bind_eq_some_iff.1 g2
  obtain ⟨⟨⟨m, l⟩, ts4⟩, h4, g4⟩ := Option.bind_eq_some_iff.1 g3
  obtain ⟨ts5, h5, g5⟩ := Option.bind_eq_some_iff.1 g4
  cases g5
  have e3 := expect_inv h3
  rw [expectKeyword_inv h1, expectId_inv h2, e3, importPath_inv h4, expect_inv h5, CImport.tokens_eq]
  simp

/-- A declaration begins with one of these keywords. -/
theorem written_head {d : CDirective} {ts : List Token} (h : DirectiveWritten d ts) :
    ∃ k r, ts = .keyword k :: r ∧ k ≠ .compatVersion ∧ k ≠ .package ∧ k ≠ .import := by
  cases h with
  | other d _ => cases d <;> exact ⟨_, _, rfl, by decide, by decide, by decide⟩
  | _ => exact ⟨_, _, rfl, by decide, by decide, by decide⟩

theorem all_no_keyword {ds : List CDirective} {tss : List (List Token)} (h : List.Forall₂ DirectiveWritten ds tss) {k : Keyword}
    (hk : k = .compatVersion ∨ k = .package ∨ k = .import) (ts : List Token) : tss.flatten ≠ .keyword k :: ts := by
  cases h with
  | nil => simp
  | cons h _ =>
    obtain ⟨k', r, rfl, h1, h2, h3⟩ := written_head h
    simp only [List.flatten_cons, List.cons_append]
    intro hh
    cases hh
    rcases hk with rfl | rfl | rfl <;> contradiction

theorem import_head (i : CImport) (r : List Token) : ∃ ts, i.tokens ++ r = .keyword .import :: ts := ⟨_, rfl⟩

theorem after_package_no_keyword {is : List CImport} {ts : List Token} {k : Keyword} (hk : k ≠ .import)
    (h : ∀ r, ts ≠ .keyword k :: r) (r : List Token) : is.flatMap CImport.tokens ++ ts ≠ .keyword k :: r := by
  cases is with
  | nil => exact h r
  | cons i is =>
    intro hh
    simp only [List.flatMap_cons, List.append_assoc] at hh
    obtain ⟨ts', h'⟩ := import_head i (is.flatMap CImport.tokens ++ ts)
    rw [h'] at hh
    cases hh
    exact hk rfl

theorem length_le_flatten {α β : Type} {W : α → List β → Prop} (hne : ∀ a w, W a w → w ≠ []) {as : List α} {tss : List (List β)}
    (h : List.Forall₂ W as tss) : tss.length ≤ tss.flatten.length := by
  induction h with
  | nil => simp
  | cons h _ ih =>
    have := List.length_pos_iff.2 (hne _ _ h)
    simp only [List.length_cons, List.flatten_cons, List.length_append]
    omega

theorem package_reads {p : CPackage} (hp : ∀ d ∈ p.directives, d.Readable) {ts : List Token} (h : PackageWritten p ts) :
    parsePackage ts = some p := by
  obtain ⟨tss, hw, rfl⟩ := h
  have nk : ∀ {k : Keyword}, (k = .compatVersion ∨ k = .package ∨ k = .import) → ∀ ts, tss.flatten ≠ .keyword k :: ts :=
    fun hk ts => all_no_keyword hw hk ts
  have hcv : ∀ ts, packageNameTokens p.name ++ (p.imports.flatMap CImport.tokens ++ tss.flatten) ≠ .keyword .compatVersion :: ts := by
    intro ts
    rcases p.name with _ | ⟨n, ns⟩
    · exact after_package_no_keyword (by simp) (nk (Or.inl rfl)) ts
    · simp [packageNameTokens]
  have hbi : beginsKeyword .import tss.flatten = false := by
    cases hb : beginsKeyword .import tss.flatten with
    | false => rfl
    | true =>
      unfold beginsKeyword at hb
      split at hb
      · rename_i k ts heq
        rw [decide_eq_true_eq] at hb
        subst hb
        exact absurd heq (nk (Or.inr (Or.inr rfl)) ts)
      · cases hb
  unfold parsePackage
  rw [compatibility_reads _ hcv]
  simp only [bind, Option.bind]
  rw [packageName_reads _ (after_package_no_keyword (by simp) (nk (Or.inr (Or.inl rfl))))]
  dsimp only
  rw [many_reads' (tok := CImport.tokens) hbi p.imports (fun i _ r => ⟨rfl, import_reads i r⟩) (fun i _ => by simp [CImport.tokens])]
  dsimp only
  have hd := many_reads (begins := fun ts => !ts.isEmpty) (item := languageDirective) (rest := []) rfl hw (tss.flatten.length + 1)
    (fun d hd ts hts r => ⟨by
      obtain ⟨k, r', rfl, -⟩ := written_head hts
      rfl, written_reads (hp d hd) hts r⟩)
    (Nat.lt_succ_of_le (length_le_flatten (fun d w hw => by obtain ⟨k, r', rfl, -⟩ := written_head hw; simp) hw))
  rw [List.append_nil] at hd
  rw [hd]
  rfl

theorem package_inv {ts : List Token} {p : CPackage} (h : parsePackage ts = some p) : PackageWritten p ts := by
  obtain ⟨⟨c, ts1⟩, h1, g1⟩ := Option.bind_eq_some_iff.1 h
  obtain ⟨⟨n, ts2⟩, h2, g2⟩ := Option.bind_eq_some_iff.1 g1
  obtain ⟨⟨is, ts3⟩, h3, g3⟩ := Option.bind_eq_some_iff.1 g2
  obtain ⟨⟨ds, ts4⟩, h4, g4⟩ := Option.bind_eq_some_iff.1 g3
  dsimp only at g4
  split at g4
  · rename_i he
    cases g4
    obtain ⟨tss, hw, e4⟩ := many_inv (W := DirectiveWritten) (fun ts a r => written_inv) _ _ _ _ h4
    refine ⟨tss, hw, ?_⟩
    have e2 : ts1 = _ := packageName_inv h2
    have e3 : ts2 = _ := many_inv' (fun ts e r => import_inv) h3
    have e4 : ts3 = _ := e4
    rw [compatibility_inv h1, e2, e3, e4, List.isEmpty_iff.1 he, List.append_nil]
  · cases g4

/-! ## C85 -/

/-- **C85**: a package is read from its tokens, with any number of declarations of any size.  All expressions are grouped by the
strength of their operators, lengths are given to builtin types, and no field without an offset can be taken for one with an offset. -/
theorem C85_reads_partial {p : CPackage} (hp : ∀ d ∈ p.directives, d.Readable) {ts : List Token} (h : PackageWritten p ts) :
    parsePackage ts = some p := package_reads hp h

/-- **C85**: what is read is written in the tokens: every token belongs to the package, in the order of the grammar, which asks for a
parameter of a choice, an item of an enum or bitmask, and a table of a database. -/
theorem C85_read {ts : List Token} {p : CPackage} (h : parsePackage ts = some p) : PackageWritten p ts := package_inv h

/-- **C85**: tokens are not those of two packages. -/
theorem C85_unique_partial {p q : CPackage} (hp : ∀ d ∈ p.directives, d.Readable) (hq : ∀ d ∈ q.directives, d.Readable)
    {ts : List Token} (h : PackageWritten p ts) (h' : PackageWritten q ts) : p = q :=
  Option.some.inj ((C85_reads_partial hp h).symm.trans (C85_reads_partial hq h'))

/-- **C85** with **C82**: a text that is made of the tokens of a package, of white space and of comments is read as that package. -/
theorem C85_text_partial {p : CPackage} (hp : ∀ d ∈ p.directives, d.Readable) {ps : List Piece} (hfit : PiecesFit ps)
    (hne : ∀ q ∈ ps, q ≠ .block []) (h : PackageWritten p (pieceTokens ps)) : (lex (piecesText ps)).bind parsePackage = some p := by
  rw [C82_tokens_partial hfit hne]
  exact C85_reads_partial hp h

/-- **C85**: what a text is read as is written in it, between white space and comments. -/
theorem C85_text_read {s : List Char} {p : CPackage} {ts : List Token} (hl : lex s = some ts) (hv : ∀ t ∈ ts, ¬ t.Invalid)
    (h : parsePackage ts = some p) :
    ∃ ps : List Piece, piecesText ps = s ∧ PackageWritten p (pieceTokens ps) ∧ ∀ q ∈ ps, q.Proper ∨ q.Swallows := by
  obtain ⟨ps, h1, h2, h3⟩ := C82_source hl hv
  exact ⟨ps, h1, by rw [h2]; exact C85_read h, h3⟩

/-- **C85**: fields that begin with a keyword, have a type that is a name without template arguments, have nothing behind a colon, or
have an initializer or condition, are not taken for fields with an offset. -/
theorem C85_plain {f : CField} (hf : f.Plain) (e : CExpr) (g : CField) : f.bodyTokens ≠ e.tokens ++ .sym .colon :: g.bodyTokens :=
  plain_no_offset hf e g

/-! ## A field that can be read in two ways -/

/-- The names of one letter. -/
def exIdent (c : Char) (h : isIdText [c] = true := by decide) : Ident := ⟨[c], h⟩

/-- An identifier as an expression. -/
def exRef (c : Char) (h : isIdText [c] = true := by decide) : CExpr := .identifier ⟨[c], h⟩

/-- A name as a type. -/
def exType (c : Char) (h : isIdText [c] = true := by decide) : CTypeRef := .named ⟨[c], h⟩ [] []

/-- A field with nothing else but a type and a name. -/
def exField (type : CTypeRef) (name : Ident) : CField :=
  ⟨none, none, false, false, ⟨false, false, ⟨type, .none⟩, name, none⟩, none, none, none⟩

/-- `A<B> c : D < E > f;` as a field `c` with a constraint. -/
def exConstraint : CField :=
  { exField (.named (exIdent 'A') [] [exType 'B']) (exIdent 'c') with
    constraint := some (.relational .gt (.relational .lt (exRef 'D') (exRef 'E')) (exRef 'f')) }

/-- `A < B > c : D<E> f;` as a field `f` with an offset. -/
def exOffset : CField :=
  { exField (.named (exIdent 'D') [] [exType 'E']) (exIdent 'f') with
    offset := some (.relational .gt (.relational .lt (exRef 'A') (exRef 'B')) (exRef 'c')) }

/-- A structure with one field. -/
def exStructure (f : CField) : CPackage := ⟨none, none, [], [.structure ⟨exIdent 'S', [], []⟩ [f] []]⟩

/-- Its tokens. -/
def exStructureTokens (f : CField) : List Token :=
  [.keyword .struct, .id (exIdent 'S'), .sym .lbrace] ++ f.tokens ++ [.sym .rbrace, .sym .semicolon]

theorem exStructure_written (f : CField) : PackageWritten (exStructure f) (exStructureTokens f) :=
  ⟨_, .cons (.structure _ _ _) .nil, by
    simp [exStructureTokens, exStructure, CHead.tokens, templateParamTokens, typeParamTokens, endTokens, compatibilityTokens,
      packageNameTokens]⟩

/-- **C85** does not hold of all fields: the tokens of `A<B> c : D<E> f;` are those of two fields, `c` with a constraint and `f` with
an offset.  The second is read. -/
theorem C85_violated_offset : exConstraint ≠ exOffset ∧ exStructureTokens exConstraint = exStructureTokens exOffset ∧
    PackageWritten (exStructure exConstraint) (exStructureTokens exConstraint) ∧
    parsePackage (exStructureTokens exConstraint) = some (exStructure exOffset) := by
  refine ⟨?_, rfl, exStructure_written _, rfl⟩
  intro h
  cases congrArg CField.offset h

/-! ## A case -/

/-- `package p.q; import r.*; const uint8 N = 1 + 2; enum uint8 E { a = N, @removed b, }; struct S<T>(E e) { align(8): o[@index]:
optional packed T(e, explicit f) x[N] if e == E.a : x > 1; function bit:3 g() { return 1; } }; choice C(E e) on e { case E.a: case E.b:
E y; default: ; };` -/
def exPackage : CPackage :=
  ⟨none, some (exIdent 'p', [exIdent 'q']), [⟨exIdent 'r', [], none⟩],
    [.const ⟨.builtin (.word .uint8), .none⟩ (exIdent 'N') (.additive .plus (.literal .decimal ['1']) (.literal .decimal ['2'])),
      .enum ⟨.builtin (.word .uint8), .none⟩ (exIdent 'E') [⟨none, exIdent 'a', some (exRef 'N')⟩, ⟨some .removed, exIdent 'b', none⟩],
      .structure ⟨exIdent 'S', [exIdent 'T'], [⟨exType 'E', exIdent 'e'⟩]⟩
        [⟨some (.literal .decimal ['8']), some (.array (exRef 'o') .index), false, true,
          ⟨true, false, ⟨exType 'T', .typeArgs (.expression (exRef 'e')) [.explicit (exIdent 'f')]⟩, exIdent 'x', some (some (exRef 'N'))⟩,
          none, some (.equality .eq (exRef 'e') (.dot (exRef 'E') (exIdent 'a'))),
          some (.relational .gt (exRef 'x') (.literal .decimal ['1']))⟩]
        [⟨.builtin (.fixed false ⟨['3'], by decide⟩), exIdent 'g', .literal .decimal ['1']⟩],
      .choice ⟨exIdent 'C', [], [⟨exType 'E', exIdent 'e'⟩]⟩ (exRef 'e')
        [⟨.dot (exRef 'E') (exIdent 'a'), [.dot (exRef 'E') (exIdent 'b')], some ⟨⟨false, false, ⟨exType 'E', .none⟩, exIdent 'y', none⟩, none⟩⟩]
        (some none) []]⟩

theorem exPackage_readable : ∀ d ∈ exPackage.directives, d.Readable := by
  intro d hd
  simp only [exPackage, List.mem_cons, List.not_mem_nil, or_false] at hd
  rcases hd with rfl | rfl | rfl | rfl
  · simp [CDirective.Readable, CTypeInst.Readable, CExpr.Grouped, LeftToRight, CExpr.binds]
  · simp [CDirective.Readable, CTypeInst.Readable, OptGrouped, exRef, CExpr.Grouped]
  · simp [CDirective.Readable, CField.Readable, CFieldTypeId.Readable, CTypeInst.Readable, CTypeArg.Grouped, OptGrouped, exRef,
      CExpr.Grouped, LeftToRight, CExpr.binds]
  · simp [CDirective.Readable, CChoiceCases.Readable, CChoiceField.Readable, CFieldTypeId.Readable, CTypeInst.Readable, OptGrouped,
      exRef, CExpr.Grouped, CExpr.binds]

/-- It has tokens, and is read from them. -/
example : ∃ ts, PackageWritten exPackage ts ∧ parsePackage ts = some exPackage :=
  have h : PackageWritten exPackage _ :=
    ⟨_, .cons (.const _ _ _) (.cons (.enum _ _ _ _ (.comma _ _)) (.cons (.structure _ _ _) (.cons (.choice _ _ _ _ _ (by simp)) .nil))), rfl⟩
  ⟨_, h, C85_reads_partial exPackage_readable h⟩

/-- `sql_table T using m { sql_virtual uint8 a sql "NOT NULL"; sql "PRIMARY KEY(a)"; sql_without_rowid; }; sql_database D { T t; }; service V { R f(Q); };
pubsub P { publish topic("x") R a; topic("y") Q b; }; rule_group G { rule "r"; };` -/
def exOthers : CPackage :=
  ⟨none, none, [],
    [.other (.sqlTable (exIdent 'T') [] (some (exIdent 'm'))
        [⟨true, ⟨.builtin (.word .uint8), .none⟩, exIdent 'a', some (.literal .string "\"NOT NULL\"".toList)⟩]
        (some (.literal .string "\"PRIMARY KEY(a)\"".toList)) true),
      .other (.sqlDatabase (exIdent 'D') [⟨⟨exType 'T', .none⟩, exIdent 't'⟩]),
      .other (.service (exIdent 'V') [⟨exType 'R', exIdent 'f', exType 'Q'⟩]),
      .other (.pubsub (exIdent 'P') [⟨some .publish, .literal .string "\"x\"".toList, exType 'R', exIdent 'a'⟩,
        ⟨none, .literal .string "\"y\"".toList, exType 'Q', exIdent 'b'⟩]),
      .other (.ruleGroup (exIdent 'G') [.literal .string "\"r\"".toList])]⟩

/-- It has tokens, and is read from them. -/
example : ∃ ts, PackageWritten exOthers ts ∧ parsePackage ts = some exOthers :=
  have h : PackageWritten exOthers _ :=
    ⟨_, .cons (.other _ trivial) (.cons (.other _ (by simp [COther.Complete])) (.cons (.other _ trivial)
      (.cons (.other _ trivial) (.cons (.other _ trivial) .nil)))), rfl⟩
  ⟨_, h, C85_reads_partial (by
    intro d hd
    simp only [exOthers, List.mem_cons, List.not_mem_nil, or_false] at hd
    rcases hd with rfl | rfl | rfl | rfl | rfl <;>
      simp [CDirective.Readable, CTypeInst.Readable, OptGrouped, CExpr.Grouped]) h⟩

/-- From a text. -/
example : lex "struct S{A<B>c:D<E>f;};".toList = some (exStructureTokens exConstraint) := by decide +kernel

/-- A field that is plain, with a constraint. -/
example : (exField (exType 'A') (exIdent 'c')).Plain := Or.inr (Or.inr (Or.inr (Or.inr (Or.inr (Or.inl ⟨⟨_, _, rfl⟩, fun _ => nofun⟩)))))

end Verif
