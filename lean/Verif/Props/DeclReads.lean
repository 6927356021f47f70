import Verif.Props.DeclTokens

/-!
# Reading the parts of a declaration (for C85)
-/

namespace Verif

/-! ## Brackets in expressions -/

/-- Closes what was opened last. -/
def popBracket (s : Punct) : List Punct → Option (List Punct)
  | s' :: stack => if s' = s then some stack else none
  | [] => none

/-- What is to be closed after a token of an expression, or nothing if the token cannot be in an expression there. -/
def bracketStep (stack : List Punct) : Token → Option (List Punct)
  | .sym .lparen => some (.rparen :: stack)
  | .sym .lbracket => some (.rbracket :: stack)
  | .sym .questionmark => some (.colon :: stack)
  | .sym .rparen => popBracket .rparen stack
  | .sym .rbracket => popBracket .rbracket stack
  | .sym .colon => popBracket .colon stack
  | .sym .assign => none
  | .sym .lbrace => none
  | .sym .rbrace => none
  | .sym .semicolon => none
  | .sym _ => some stack
  | .keyword .isset => some stack
  | .keyword .lengthof => some stack
  | .keyword .valueof => some stack
  | .keyword .numbits => some stack
  | .keyword .index => some stack
  | .keyword _ => none
  | .literal _ _ => some stack
  | .id _ => some stack
  | .invalidString _ => none
  | .invalidToken _ => none

/-- Reads tokens, up to the first that cannot be in an expression. -/
def scanBrackets : List Punct → List Token → Except Token (List Punct)
  | stack, [] => .ok stack
  | stack, t :: ts =>
    match bracketStep stack t with
    | some stack' => scanBrackets stack' ts
    | none => .error t

theorem scan_append (a b : List Token) (s : List Punct) :
    scanBrackets s (a ++ b) = (scanBrackets s a).bind fun s' => scanBrackets s' b := by
  induction a generalizing s with
  | nil => rfl
  | cons t ts ih =>
    simp only [List.cons_append, scanBrackets]
    cases bracketStep s t with
    | none => rfl
    | some s' => exact ih s'

theorem scan_tokens (e : CExpr) (s : List Punct) : scanBrackets s e.tokens = .ok s := by
  induction e generalizing s with
  | unary op e ih => cases op <;> simp [CExpr.tokens, scanBrackets, bracketStep, UnaryOp.sym, ih]
  | multiplicative op a b iha ihb => cases op <;> simp [CExpr.tokens, scan_append, scanBrackets, bracketStep, MulOp.sym, iha, ihb, Except.bind]
  | additive op a b iha ihb => cases op <;> simp [CExpr.tokens, scan_append, scanBrackets, bracketStep, AddOp.sym, iha, ihb, Except.bind]
  | shift op a b iha ihb => cases op <;> simp [CExpr.tokens, scan_append, scanBrackets, bracketStep, ShiftOp.syms, iha, ihb, Except.bind]
  | relational op a b iha ihb => cases op <;> simp [CExpr.tokens, scan_append, scanBrackets, bracketStep, RelOp.sym, iha, ihb, Except.bind]
  | equality op a b iha ihb => cases op <;> simp [CExpr.tokens, scan_append, scanBrackets, bracketStep, EqOp.sym, iha, ihb, Except.bind]
  | _ => simp_all [CExpr.tokens, scan_append, scanBrackets, bracketStep, popBracket, Except.bind]

/-- What is open below does not matter. -/
theorem bracketStep_weaken {s s' u : List Punct} {t : Token} (h : bracketStep s t = some s') :
    bracketStep (s ++ u) t = some (s' ++ u) := by
  unfold bracketStep at h ⊢
  split at h <;> first
    | (cases h; done)
    | (cases h; rfl)
    | (unfold popBracket at h ⊢
       cases s with
       | nil => cases h
       | cons x xs =>
         dsimp only [List.cons_append] at h ⊢
         split at h
         · rename_i hx; rw [if_pos hx]; cases h; rfl
         · cases h)

theorem scan_weaken (ts : List Token) {s s' : List Punct} (u : List Punct) (h : scanBrackets s ts = .ok s') :
    scanBrackets (s ++ u) ts = .ok (s' ++ u) := by
  induction ts generalizing s with
  | nil => cases h; rfl
  | cons t ts ih =>
    simp only [scanBrackets] at h ⊢
    cases hb : bracketStep s t with
    | none => rw [hb] at h; cases h
    | some s1 =>
      rw [hb] at h
      rw [bracketStep_weaken hb]
      exact ih h

/-- A prefix of something that is read without an error is read without an error. -/
theorem scan_prefix {a b : List Token} {s s' : List Punct} (h : scanBrackets s (a ++ b) = .ok s') :
    ∃ s1, scanBrackets s a = .ok s1 ∧ scanBrackets s1 b = .ok s' := by
  rw [scan_append] at h
  cases ha : scanBrackets s a with
  | error t => rw [ha] at h; cases h
  | ok s1 => rw [ha] at h; exact ⟨s1, rfl, h⟩

/-- Inside of brackets, a prefix of an expression leaves them open. -/
theorem scan_open {e : CExpr} {a b : List Token} (h : e.tokens = a ++ b) (s : List Punct) :
    ∃ s1, scanBrackets s a = .ok (s1 ++ s) := by
  have h0 := scan_tokens e []
  rw [h] at h0
  obtain ⟨s1, h1, -⟩ := scan_prefix h0
  exact ⟨s1, by simpa using scan_weaken a s h1⟩

/-- An expression does not begin with a closing token. -/
theorem tokens_head (e : CExpr) : ∃ t ts, e.tokens = t :: ts ∧ t ≠ .sym .rparen ∧ t ≠ .sym .rbracket ∧ t ≠ .sym .gt ∧
    t ≠ .keyword .align ∧ t ≠ .keyword .explicit ∧ t ≠ .sym .rbrace ∧ t ≠ .keyword .function := by
  have h0 := scan_tokens e []
  obtain ⟨t, ts, h1, h2⟩ := tokens_ne_gt e
  rw [h1] at h0
  refine ⟨t, ts, h1, ?_, ?_, h2, ?_, ?_, ?_, ?_⟩ <;> (rintro rfl; cases h0)

/-! ## Tables -/

theorem builtinWord_keyword (w : BuiltinWord) : w.keyword.builtinWord = some w := by cases w <;> rfl

theorem builtinWord_inv {k : Keyword} {w : BuiltinWord} (h : k.builtinWord = some w) : w.keyword = k := by
  cases k <;> first | (cases h; done) | (cases h; rfl)

/-! ## Types -/

/-- The next token is not part of a type reference. -/
def TypeEnds : List Token → Prop
  | .sym s :: _ => s ≠ .dot ∧ s ≠ .lt ∧ s ≠ .colon
  | _ => True

theorem dotIds_reads (ns : List Ident) {rest : List Token} (h : ∀ ts, rest ≠ .sym .dot :: ts) :
    dotIds (dotTokens ns ++ rest) = (ns, rest) := by
  induction ns with
  | nil =>
    show dotIds rest = _
    unfold dotIds
    split
    · rename_i ts _; exact absurd rfl (h _)
    · rfl
  | cons n ns ih => simp only [dotTokens, List.flatMap_cons, List.cons_append, List.nil_append] at ih ⊢; simp [dotIds, ih]

theorem dotIds_inv (ts : List Token) : ts = dotTokens (dotIds ts).1 ++ (dotIds ts).2 := by
  induction ts using dotIds.induct with
  | case1 name ts ih => simp only [dotIds, dotTokens, List.flatMap_cons, List.cons_append, List.nil_append]; congr 2
  | case2 ts h =>
    rw [dotIds]
    · rfl
    · exact h

theorem builtin_reads (b : CBuiltin) {rest : List Token} (h : ∀ ts, rest ≠ .sym .colon :: ts) :
    builtinType (b.tokens ++ rest) = some (b, rest) := by
  cases b with
  | fixed signed width =>
    have hw : fixedWidth signed (.literal .decimal width.text :: rest) = some (.fixed signed width, rest) := by
      simp only [fixedWidth]
      rw [dif_pos width.ok]
    cases signed
    · exact hw
    · exact hw
  | word w =>
    show builtinType (.keyword w.keyword :: rest) = _
    unfold builtinType
    split
    · rename_i heq; exact absurd (List.cons.inj heq).2 (h _)
    · rename_i heq; exact absurd (List.cons.inj heq).2 (h _)
    · rename_i heq
      obtain ⟨h1, h2⟩ := List.cons.inj heq
      cases h1
      subst h2
      rw [builtinWord_keyword]
      rfl
    · rename_i h3; exact absurd rfl (h3 _ _)

theorem fixedWidth_inv {signed : Bool} {ts rest : List Token} {b : CBuiltin} (h : fixedWidth signed ts = some (b, rest)) :
    ∃ w, b = .fixed signed w ∧ ts = .literal .decimal w.text :: rest := by
  unfold fixedWidth at h
  split at h
  · split at h
    · cases h; exact ⟨_, rfl, rfl⟩
    · cases h
  · cases h

theorem builtin_inv {ts rest : List Token} {b : CBuiltin} (h : builtinType ts = some (b, rest)) : ts = b.tokens ++ rest := by
  unfold builtinType at h
  split at h
  · obtain ⟨w, rfl, rfl⟩ := fixedWidth_inv h; rfl
  · obtain ⟨w, rfl, rfl⟩ := fixedWidth_inv h; rfl
  · rename_i k ts' _ _
    cases hk : k.builtinWord with
    | none => rw [hk] at h; cases h
    | some w =>
      rw [hk] at h
      cases h
      simp [CBuiltin.tokens, builtinWord_inv hk]
  · cases h

theorem builtin_head (b : CBuiltin) : ∃ k ts, b.tokens = .keyword k :: ts ∧ k.builtinWord ≠ none := by
  cases b with
  | word w => exact ⟨_, _, rfl, by rw [builtinWord_keyword]; exact nofun⟩
  | fixed s w => cases s <;> exact ⟨_, _, rfl, nofun⟩

mutual
theorem typeRef_reads : ∀ (t : CTypeRef) (n : Nat) (rest : List Token), t.tokens.length ≤ n → TypeEnds rest →
    typeReference n (t.tokens ++ rest) = some (t, rest)
  | .builtin b, n, rest, hn, hr => by
    obtain ⟨k, ts, hk, -⟩ := builtin_head b
    cases n with
    | zero => rw [CTypeRef.tokens, hk] at hn; exact absurd hn (by simp)
    | succ n =>
      have hb := builtin_reads b (rest := rest) (by rintro ts rfl; exact hr.2.2 rfl)
      rw [CTypeRef.tokens]
      rw [hk] at hb ⊢
      simp only [List.cons_append] at hb ⊢
      rw [typeReference, hb]
      · rfl
      · exact nofun
  | .named first rest' [], n, rest, hn, hr => by
    cases n with
    | zero => rw [CTypeRef.tokens] at hn; exact absurd hn (by simp)
    | succ n =>
      rw [CTypeRef.tokens, List.cons_append, typeReference,
        dotIds_reads rest' (rest := rest) (by rintro ts rfl; exact hr.1 rfl)]
      dsimp only
      split
      · exact absurd rfl hr.2.1
      · rfl
  | .named first rest' (t :: ts), n, rest, hn, hr => by
    cases n with
    | zero => rw [CTypeRef.tokens] at hn; exact absurd hn (by simp)
    | succ n =>
      have hl : t.tokens.length + (moreTypeTokens ts).length + 1 ≤ n := by
        rw [CTypeRef.tokens] at hn
        simp only [List.length_cons, List.length_append] at hn
        omega
      have ih := typeRefs_reads t ts n rest hl
      rw [CTypeRef.tokens]
      simp only [List.cons_append, List.append_assoc, typeReference, List.nil_append]
      rw [dotIds_reads rest' (by intro ts h; cases h)]
      dsimp only
      rw [ih]

theorem typeRefs_reads : ∀ (t : CTypeRef) (ts : List CTypeRef) (n : Nat) (rest : List Token),
    t.tokens.length + (moreTypeTokens ts).length + 1 ≤ n →
    templateArguments n (t.tokens ++ (moreTypeTokens ts ++ .sym .gt :: rest)) = some (t :: ts, rest)
  | t, [], n, rest, hn => by
    cases n with
    | zero => exact absurd hn (by simp)
    | succ n =>
      simp only [moreTypeTokens, List.nil_append, List.length_nil] at hn ⊢
      rw [templateArguments, typeRef_reads t n (.sym .gt :: rest) (by omega) (by simp [TypeEnds])]
      rfl
  | t, t' :: ts, n, rest, hn => by
    cases n with
    | zero => exact absurd hn (by simp)
    | succ n =>
      simp only [moreTypeTokens, List.length_cons, List.length_append, List.cons_append, List.append_assoc] at hn ⊢
      rw [templateArguments, typeRef_reads t n (.sym .comma :: _) (by omega) (by simp [TypeEnds])]
      have ih := typeRefs_reads t' ts n rest (by omega)
      simp [ih]
end

theorem typeRef_inv (n : Nat) :
    (∀ ts t rest, typeReference n ts = some (t, rest) → ts = t.tokens ++ rest) ∧
    (∀ ts args rest, templateArguments n ts = some (args, rest) →
      ∃ a as, args = a :: as ∧ ts = a.tokens ++ (moreTypeTokens as ++ .sym .gt :: rest)) := by
  induction n with
  | zero => exact ⟨fun ts t rest h => (by rw [typeReference] at h; cases h), fun ts t rest h => (by rw [templateArguments] at h; cases h)⟩
  | succ n ih =>
    constructor
    · intro ts t rest h
      unfold typeReference at h
      split at h
      · cases (by assumption : Nat.succ _ = 0)
      · rename_i m first ts' hm
        cases hm
        have hd := dotIds_inv ts'
        split at h
        · rename_i ts2 heq
          rw [heq] at hd
          split at h
          · rename_i args ts3 hargs
            cases h
            obtain ⟨a, as, rfl, h2⟩ := ih.2 _ _ _ hargs
            simp only [CTypeRef.tokens, List.cons_append, List.append_assoc, List.nil_append]
            rw [← h2, ← hd]
          · cases h
            simp only [CTypeRef.tokens, List.cons_append]
            rw [← hd]
        · cases h
          rw [CTypeRef.tokens]
          exact congrArg _ hd
      · rename_i m hm _
        obtain ⟨r, hb, hr⟩ := Option.map_eq_some_iff.1 h
        cases hr
        rw [CTypeRef.tokens]
        exact builtin_inv hb
    · intro ts args rest h
      rw [templateArguments] at h
      obtain ⟨⟨t, ts1⟩, h1, h2⟩ := Option.bind_eq_some_iff.1 h
      have e1 := ih.1 _ _ _ h1
      dsimp only at h2
      split at h2
      · rename_i ts2 heq
        obtain ⟨⟨more, ts3⟩, h3, h4⟩ := Option.bind_eq_some_iff.1 h2
        obtain ⟨a, as, rfl, h5⟩ := ih.2 _ _ _ h3
        cases h4
        exact ⟨t, a :: as, rfl, by rw [e1, h5]; simp [moreTypeTokens]⟩
      · cases h2; exact ⟨t, [], rfl, by rw [e1]; rfl⟩
      · cases h2

theorem parseTypeRef_reads (t : CTypeRef) {rest : List Token} (h : TypeEnds rest) : parseTypeRef (t.tokens ++ rest) = some (t, rest) :=
  typeRef_reads t _ rest (by simp only [List.length_append]; omega) h

theorem parseTypeRef_inv {ts rest : List Token} {t : CTypeRef} (h : parseTypeRef ts = some (t, rest)) : ts = t.tokens ++ rest :=
  (typeRef_inv _).1 _ _ _ h

theorem typeRef_head (t : CTypeRef) :
    (∃ n ts, t.tokens = .id n :: ts) ∨ ∃ k ts, t.tokens = .keyword k :: ts ∧ k.builtinWord ≠ none := by
  cases t with
  | builtin b => rw [CTypeRef.tokens]; exact Or.inr (builtin_head b)
  | named first rest args => cases args <;> (rw [CTypeRef.tokens]; exact Or.inl ⟨_, _, rfl⟩)

/-! ## Lists -/

theorem commaList_reads {α : Type} {item : List Token → Option (α × List Token)} {tok : α → List Token} {P : List Token → Prop}
    (hP : ∀ ts, P (.sym .comma :: ts)) {rest : List Token} (hr : P rest) (hc : ∀ ts, rest ≠ .sym .comma :: ts) (as : List α) :
    ∀ (a : α) (n : Nat), (∀ x ∈ a :: as, ∀ r, P r → item (tok x ++ r) = some (x, r)) → as.length < n →
      commaList item n (tok a ++ (afterCommas tok as ++ rest)) = some (a :: as, rest) := by
  induction as with
  | nil =>
    intro a n h hn
    cases n with
    | zero => exact absurd hn (by simp)
    | succ n =>
      rw [commaList]
      simp only [afterCommas, List.flatMap_nil, List.nil_append]
      rw [h a (by simp) rest hr]
      simp only [bind, Option.bind]
      rfl
  | cons b bs ih =>
    intro a n h hn
    cases n with
    | zero => exact absurd hn (by simp)
    | succ n =>
      rw [commaList]
      simp only [afterCommas, List.flatMap_cons, List.cons_append, List.append_assoc]
      rw [h a (by simp) _ (hP _)]
      have := ih b n (fun x hx => h x (List.mem_cons_of_mem _ hx)) (by simp at hn; omega)
      simp only [afterCommas] at this
      simp [this]

theorem commaList_inv {α : Type} {item : List Token → Option (α × List Token)} {tok : α → List Token}
    (h : ∀ ts a r, item ts = some (a, r) → ts = tok a ++ r) (n : Nat) :
    ∀ (ts : List Token) (as : List α) (rest : List Token), commaList item n ts = some (as, rest) →
      ∃ b bs, as = b :: bs ∧ ts = tok b ++ (afterCommas tok bs ++ rest) := by
  induction n with
  | zero => intro ts as rest h; cases h
  | succ n ih =>
    intro ts as rest hc
    rw [commaList] at hc
    obtain ⟨⟨a, ts1⟩, h1, h2⟩ := Option.bind_eq_some_iff.1 hc
    have e1 := h _ _ _ h1
    dsimp only at h2
    split at h2
    · obtain ⟨⟨more, ts3⟩, h3, h4⟩ := Option.bind_eq_some_iff.1 h2
      obtain ⟨b, bs, rfl, h5⟩ := ih _ _ _ h3
      cases h4
      exact ⟨a, b :: bs, rfl, by rw [e1, h5]; simp [afterCommas]⟩
    · cases h2
      exact ⟨a, [], rfl, by rw [e1]; rfl⟩

theorem many_reads {α : Type} {begins : List Token → Bool} {item : List Token → Option (α × List Token)} {W : α → List Token → Prop}
    {rest : List Token} (hr : begins rest = false) {as : List α} {tss : List (List Token)} (hw : List.Forall₂ W as tss) :
    ∀ (n : Nat), (∀ a ∈ as, ∀ ts, W a ts → ∀ r, begins (ts ++ r) = true ∧ item (ts ++ r) = some (a, r)) → tss.length < n →
      manyItems begins item n (tss.flatten ++ rest) = some (as, rest) := by
  induction hw with
  | nil =>
    intro n h hn
    cases n with
    | zero => exact absurd hn (by simp)
    | succ n => simp [manyItems, hr]
  | @cons a ts as tss hat _ ih =>
    intro n h hn
    cases n with
    | zero => exact absurd hn (by simp)
    | succ n =>
      simp only [List.flatten_cons, List.append_assoc]
      obtain ⟨h1, h2⟩ := h a (by simp) ts hat (tss.flatten ++ rest)
      rw [manyItems, if_pos h1, h2]
      have := ih n (fun x hx => h x (List.mem_cons_of_mem _ hx)) (by simp at hn; omega)
      simp [this]

theorem many_inv {α : Type} {begins : List Token → Bool} {item : List Token → Option (α × List Token)} {W : α → List Token → Prop}
    (h : ∀ ts a r, item ts = some (a, r) → ∃ w, W a w ∧ ts = w ++ r) (n : Nat) :
    ∀ (ts : List Token) (as : List α) (rest : List Token), manyItems begins item n ts = some (as, rest) →
      ∃ tss, List.Forall₂ W as tss ∧ ts = tss.flatten ++ rest := by
  induction n with
  | zero => intro ts as rest h; cases h
  | succ n ih =>
    intro ts as rest hm
    rw [manyItems] at hm
    split at hm
    · obtain ⟨⟨a, ts1⟩, h1, h2⟩ := Option.bind_eq_some_iff.1 hm
      obtain ⟨w, hw, e1⟩ := h _ _ _ h1
      obtain ⟨⟨as', ts2⟩, h3, h4⟩ := Option.bind_eq_some_iff.1 h2
      obtain ⟨tss, ht, e2⟩ := ih _ _ _ h3
      cases h4
      exact ⟨w :: tss, .cons hw ht, by rw [e1, e2]; simp⟩
    · cases hm
      exact ⟨[], .nil, rfl⟩

theorem forall₂_map {α β : Type} (f : α → β) (as : List α) : List.Forall₂ (fun a b => b = f a) as (as.map f) := by
  induction as with
  | nil => exact .nil
  | cons a as ih => exact .cons rfl ih

theorem forall₂_map_inv {α β : Type} {f : α → β} {as : List α} {bs : List β} (h : List.Forall₂ (fun a b => b = f a) as bs) :
    bs = as.map f := by
  induction h with
  | nil => rfl
  | cons h _ ih => rw [h, ih]; rfl

/-- The same for things with one way to write them. -/
theorem many_reads' {α : Type} {begins : List Token → Bool} {item : List Token → Option (α × List Token)} {tok : α → List Token}
    {rest : List Token} (hr : begins rest = false) (as : List α)
    (h : ∀ a ∈ as, ∀ r, begins (tok a ++ r) = true ∧ item (tok a ++ r) = some (a, r)) (hne : ∀ a ∈ as, tok a ≠ []) :
    manyItems begins item ((as.flatMap tok ++ rest).length + 1) (as.flatMap tok ++ rest) = some (as, rest) := by
  have := many_reads (item := item) (W := fun a ts => ts = tok a) hr (forall₂_map tok as) ((as.flatMap tok ++ rest).length + 1)
    (fun a ha ts hts r => by rw [hts]; exact h a ha r) ?_
  · rwa [← List.flatMap_def] at this
  · clear h
    induction as with
    | nil => simp
    | cons a as ih =>
      have h1 := ih (fun x hx => hne x (List.mem_cons_of_mem _ hx))
      have h2 : 0 < (tok a).length := List.length_pos_iff.2 (hne a (by simp))
      simp only [List.map_cons, List.length_cons, List.flatMap_cons, List.length_append] at h1 ⊢
      omega

theorem many_inv' {α : Type} {begins : List Token → Bool} {item : List Token → Option (α × List Token)} {tok : α → List Token}
    (h : ∀ ts a r, item ts = some (a, r) → ts = tok a ++ r) {n : Nat} {ts rest : List Token} {as : List α}
    (hm : manyItems begins item n ts = some (as, rest)) : ts = as.flatMap tok ++ rest := by
  obtain ⟨tss, h1, h2⟩ := many_inv (W := fun a ts => ts = tok a) (fun ts a r hi => ⟨_, rfl, h ts a r hi⟩) n ts as rest hm
  rw [h2, forall₂_map_inv h1, List.flatMap_def]

/-! ## Clauses -/

theorem clause_reads {start : Token} {o : Option CExpr} (hg : OptGrouped o) {rest : List Token} (he : Ends rest)
    (hs : ∀ ts, rest ≠ start :: ts) : optClause start (clauseTokens start o ++ rest) = some (o, rest) := by
  cases o with
  | some e =>
    simp only [clauseTokens, List.cons_append, optClause, if_true]
    rw [C81_reads e hg rest he]
    rfl
  | none =>
    simp only [clauseTokens, List.nil_append]
    unfold optClause
    split
    · rename_i t ts
      rw [if_neg]
      rintro rfl
      exact hs _ rfl
    · rfl

theorem clause_inv {start : Token} {o : Option CExpr} {ts rest : List Token} (h : optClause start ts = some (o, rest)) :
    ts = clauseTokens start o ++ rest := by
  unfold optClause at h
  split at h
  · split at h
    · rename_i hs
      obtain ⟨⟨e, ts1⟩, h1, h2⟩ := Option.bind_eq_some_iff.1 h
      cases h2
      rw [(C81_read h1).1, hs]
      rfl
    · cases h; rfl
  · cases h; rfl

theorem expectKeyword_inv {k : Keyword} {ts rest : List Token} (h : expectKeyword k ts = some rest) : ts = .keyword k :: rest := by
  unfold expectKeyword at h
  split at h
  · split at h
    · rename_i hk; cases h; rw [hk]
    · cases h
  · cases h

@[simp] theorem expect_sym (s : Punct) (ts : List Token) : expect s (.sym s :: ts) = some ts := by simp [expect]
@[simp] theorem expectKeyword_keyword (k : Keyword) (ts : List Token) : expectKeyword k (.keyword k :: ts) = some ts := by
  simp [expectKeyword]
@[simp] theorem expectId_id (n : Ident) (ts : List Token) : expectId (.id n :: ts) = some (n, ts) := rfl

theorem optKeyword_reads (k : Keyword) (b : Bool) {rest : List Token} (h : ∀ ts, rest ≠ .keyword k :: ts) :
    optKeyword k (flagTokens k b ++ rest) = (b, rest) := by
  cases b with
  | true => simp [flagTokens, optKeyword]
  | false =>
    simp only [flagTokens, Bool.false_eq_true, if_false, List.nil_append]
    unfold optKeyword
    split
    · rw [if_neg]
      rintro rfl
      exact h _ rfl
    · rfl

theorem optKeyword_inv (k : Keyword) (ts : List Token) : ts = flagTokens k (optKeyword k ts).1 ++ (optKeyword k ts).2 := by
  unfold optKeyword
  split
  · split
    · rename_i h; simp [flagTokens, h]
    · simp [flagTokens]
  · simp [flagTokens]

/-! ## Lengths -/

theorem closesField_inv {ts : List Token} (h : closesField ts = true) : ∃ t r, ts = t :: r ∧ bracketStep [] t = none ∧ t ≠ .sym .gt := by
  unfold closesField at h
  split at h <;> first | (cases h; done) | exact ⟨_, _, rfl, rfl, by simp⟩

/-- What follows a type: a name, then maybe a range, then a token that is not part of an expression. -/
theorem followsType_inv {ts : List Token} (h : followsType ts = true) :
    ∃ n, (∃ r, ts = .id n :: r ∧ closesField r = true) ∨
      (∃ r, ts = .id n :: .sym .lbracket :: .sym .rbracket :: r ∧ closesField r = true) ∨
      ∃ e r, ts = .id n :: .sym .lbracket :: (CExpr.tokens e ++ .sym .rbracket :: r) ∧ closesField r = true := by
  unfold followsType at h
  split at h
  · exact ⟨_, Or.inr (Or.inl ⟨_, rfl, h⟩)⟩
  · split at h
    · rename_i e r hp
      exact ⟨_, Or.inr (Or.inr ⟨e, r, by rw [(C81_read hp).1], h⟩)⟩
    · cases h
  · exact ⟨_, Or.inl ⟨_, rfl, h⟩⟩
  · cases h

theorem followsType_id {ts : List Token} (h : followsType ts = true) : ∃ n r, ts = .id n :: r := by
  obtain ⟨n, ⟨r, rfl, -⟩ | ⟨r, rfl, -⟩ | ⟨e, r, rfl, -⟩⟩ := followsType_inv h <;> exact ⟨_, _, rfl⟩

/-- Inside of an expression there is no end of a length argument with an expression before it. -/
theorem no_earlier_end {e e' : CExpr} {a : List Token} {rest : List Token} (h : e.tokens = e'.tokens ++ .sym .gt :: a)
    (hf : followsType (a ++ .sym .gt :: rest) = true) : False := by
  have h0 := scan_tokens e []
  rw [h, scan_append, scan_tokens e' []] at h0
  have ha : scanBrackets [] a = .ok [] := h0
  clear h0 h
  obtain ⟨n, ⟨r, hr, hc⟩ | ⟨r, hr, hc⟩ | ⟨e2, r, hr, hc⟩⟩ := followsType_inv hf
  · obtain ⟨t, r', rfl, ht, hgt⟩ := closesField_inv hc
    cases a with
    | nil => simp at hr
    | cons x a =>
      cases a with
      | nil => simp at hr; exact hgt hr.2.1.symm
      | cons y a =>
        simp only [List.cons_append, List.cons.injEq] at hr
        obtain ⟨rfl, rfl, -⟩ := hr
        replace ha : scanBrackets [] (y :: a) = .ok [] := ha
        rw [scanBrackets, ht] at ha
        cases ha
  · obtain ⟨t, r', rfl, ht, hgt⟩ := closesField_inv hc
    match a, hr, ha with
    | [], hr, _ => simp at hr
    | [x], hr, _ => simp at hr
    | [x, y], hr, _ => simp at hr
    | [x, y, z], hr, _ => simp at hr; exact hgt hr.2.2.2.1.symm
    | x :: y :: z :: u :: a, hr, ha =>
      simp only [List.cons_append, List.cons.injEq] at hr
      obtain ⟨rfl, rfl, rfl, rfl, -⟩ := hr
      replace ha : scanBrackets [] (u :: a) = .ok [] := ha
      rw [scanBrackets, ht] at ha
      cases ha
  · obtain ⟨t, r', rfl, ht, hgt⟩ := closesField_inv hc
    match a, hr, ha with
    | [], hr, _ => simp at hr
    | [x], hr, _ => simp at hr
    | x :: y :: a, hr, ha =>
      simp only [List.cons_append, List.cons.injEq] at hr
      obtain ⟨rfl, rfl, hr⟩ := hr
      simp only [scanBrackets, bracketStep] at ha
      rcases List.append_eq_append_iff.1 hr with ⟨c, h1, h2⟩ | ⟨c, h1, h2⟩
      · -- the expression ends inside of the brackets
        obtain ⟨s1, hs⟩ := scan_open h1 [.rbracket]
        rw [hs] at ha
        simp at ha
      · -- behind the expression in brackets
        rw [h1, scan_append, scan_tokens] at ha
        replace ha : scanBrackets [.rbracket] c = .ok [] := ha
        match c, h2, ha with
        | [], h2, _ => simp at h2
        | [x], h2, _ => simp at h2; exact hgt h2.2.1
        | x :: y :: c, h2, ha =>
          simp only [List.cons_append, List.cons.injEq] at h2
          obtain ⟨rfl, rfl, -⟩ := h2
          replace ha : scanBrackets [] (t :: c) = .ok [] := ha
          rw [scanBrackets, ht] at ha
          cases ha

theorem length_reads_aux {e : CExpr} (hg : e.Grouped) {rest : List Token} (hf : followsType rest = true) (b : List Token) :
    ∀ a : List Token, e.tokens = a.reverse ++ b → lengthArgument a (b ++ .sym .gt :: rest) = some (e, rest) := by
  induction b with
  | nil =>
    intro a h
    rw [List.append_nil] at h
    rw [List.nil_append, lengthArgument, if_pos ⟨rfl, hf⟩, ← h]
    have := C81_reads e hg [] trivial
    rw [List.append_nil] at this
    rw [this]
  | cons t b ih =>
    intro a h
    have h' : e.tokens = (t :: a).reverse ++ b := by rw [h]; simp
    rw [List.cons_append, lengthArgument]
    split
    · rename_i hc
      obtain ⟨rfl, hc⟩ := hc
      split
      · rename_i e' hp
        have := (C81_read hp).1
        rw [List.append_nil] at this
        rw [this] at h
        exact (no_earlier_end h hc).elim
      · exact ih _ h'
    · exact ih _ h'

theorem length_reads {e : CExpr} (hg : e.Grouped) {rest : List Token} (hf : followsType rest = true) :
    lengthArgument [] (e.tokens ++ .sym .gt :: rest) = some (e, rest) := length_reads_aux hg hf _ [] rfl

theorem length_inv {ts rest : List Token} {e : CExpr} : ∀ {a : List Token}, lengthArgument a ts = some (e, rest) →
    a.reverse ++ ts = e.tokens ++ .sym .gt :: rest := by
  induction ts with
  | nil => intro a h; cases h
  | cons t ts ih =>
    intro a h
    rw [lengthArgument] at h
    have hr : lengthArgument (t :: a) ts = some (e, rest) → a.reverse ++ t :: ts = e.tokens ++ .sym .gt :: rest := by
      intro h
      have := ih h
      simpa using this
    split at h
    · rename_i hc
      split at h
      · rename_i e' hp
        cases h
        have := (C81_read hp).1
        rw [List.append_nil] at this
        rw [this, hc.1]
      · exact hr h
    · exact hr h

/-! ## Types with arguments -/

theorem typeArgument_reads {a : CTypeArg} (hg : a.Grouped) {rest : List Token} (hr : Ends rest) :
    typeArgument (a.tokens ++ rest) = some (a, rest) := by
  cases a with
  | explicit name => rfl
  | expression e =>
    obtain ⟨t, ts, ht, -, -, -, -, hne, -⟩ := tokens_head e
    have := C81_reads e hg rest hr
    simp only [CTypeArg.tokens]
    rw [ht] at this ⊢
    unfold typeArgument
    split
    · rename_i heq; exact absurd (List.cons.inj heq).1 hne
    · rw [this]; rfl

theorem typeArgument_inv {ts rest : List Token} {a : CTypeArg} (h : typeArgument ts = some (a, rest)) : ts = a.tokens ++ rest := by
  unfold typeArgument at h
  split at h
  · obtain ⟨⟨n, ts1⟩, h1, h2⟩ := Option.bind_eq_some_iff.1 h
    cases h2
    rw [expectId_inv h1]
    rfl
  · obtain ⟨⟨n, ts1⟩, h1, h2⟩ := Option.bind_eq_some_iff.1 h
    cases h2
    exact (C81_read h1).1

theorem afterCommas_length {α : Type} (tok : α → List Token) (as : List α) : as.length ≤ (afterCommas tok as).length := by
  induction as with
  | nil => simp
  | cons a as ih =>
    simp only [afterCommas, List.flatMap_cons, List.length_cons, List.length_append] at ih ⊢
    omega

theorem args_reads {t : CTypeInst} (h : t.Readable) {rest : List Token} (hr : followsType rest = true) :
    instantiationArgs (t.args.tokens ++ rest) = some (t.args, rest) := by
  obtain ⟨n, r, rfl⟩ := followsType_id hr
  rcases t with ⟨type, args⟩
  cases args with
  | none => rfl
  | typeArgs first more =>
    replace h : ∀ a ∈ first :: more, a.Grouped := h
    simp only [CArgs.tokens, List.cons_append, List.append_assoc, instantiationArgs, List.nil_append]
    rw [commaList_reads (tok := CTypeArg.tokens) (P := Ends) (fun ts => rfl) (by exact rfl) (by intro ts hh; cases hh) more first _
      (fun x hx r hr => typeArgument_reads (h x hx) hr)
      (by have := afterCommas_length CTypeArg.tokens more; simp only [List.length_append]; omega)]
    simp
  | dynamicLength e =>
    replace h : e.Grouped ∧ _ := h
    simp only [CArgs.tokens, List.cons_append, List.append_assoc, instantiationArgs, List.nil_append]
    rw [length_reads h.1 hr]
    rfl

theorem args_inv {ts rest : List Token} {a : CArgs} (h : instantiationArgs ts = some (a, rest)) : ts = a.tokens ++ rest := by
  unfold instantiationArgs at h
  split at h
  · obtain ⟨⟨as, ts1⟩, h1, h2⟩ := Option.bind_eq_some_iff.1 h
    obtain ⟨ts2, h3, h4⟩ := Option.bind_eq_some_iff.1 h2
    obtain ⟨b, bs, rfl, h5⟩ := commaList_inv (tok := CTypeArg.tokens) (fun ts a r => typeArgument_inv) _ _ _ _ h1
    cases h4
    have h6 := expect_inv h3
    rw [h5, h6]
    simp [CArgs.tokens]
  · obtain ⟨⟨e, ts1⟩, h1, h2⟩ := Option.bind_eq_some_iff.1 h
    cases h2
    have := length_inv h1
    rw [List.reverse_nil, List.nil_append] at this
    rw [this]
    simp [CArgs.tokens]
  · cases h; rfl

theorem inst_reads {t : CTypeInst} (h : t.Readable) {rest : List Token} (hr : followsType rest = true) :
    typeInstantiation (t.tokens ++ rest) = some (t, rest) := by
  have ha := args_reads h hr
  have ht : parseTypeRef (t.type.tokens ++ (t.args.tokens ++ rest)) = some (t.type, t.args.tokens ++ rest) := by
    obtain ⟨n, r, rfl⟩ := followsType_id hr
    rcases t with ⟨type, args⟩
    cases args with
    | none => exact parseTypeRef_reads _ trivial
    | typeArgs first more => exact parseTypeRef_reads _ (by simp [CArgs.tokens, TypeEnds])
    | dynamicLength e =>
      obtain ⟨-, b, hb⟩ := h
      subst hb
      obtain ⟨k, ts, hk, -⟩ := builtin_head b
      have hb := builtin_reads b (rest := (CArgs.dynamicLength e).tokens ++ .id n :: r) (by intro ts hh; cases hh)
      simp only [CTypeRef.tokens, parseTypeRef] at hb ⊢
      rw [hk] at hb ⊢
      simp only [List.cons_append] at hb ⊢
      rw [typeReference, hb]
      · rfl
      · exact nofun
  simp only [typeInstantiation, CTypeInst.tokens, List.append_assoc]
  rw [ht]
  simp [ha]

theorem inst_inv {ts rest : List Token} {t : CTypeInst} (h : typeInstantiation ts = some (t, rest)) : ts = t.tokens ++ rest := by
  obtain ⟨⟨type, ts1⟩, h1, h2⟩ := Option.bind_eq_some_iff.1 h
  obtain ⟨⟨args, ts2⟩, h3, h4⟩ := Option.bind_eq_some_iff.1 h2
  cases h4
  have e1 := parseTypeRef_inv h1
  have e2 := args_inv h3
  rw [e1, e2]
  simp [CTypeInst.tokens]

theorem inst_head (t : CTypeInst) :
    (∃ n ts, t.tokens = .id n :: ts) ∨ ∃ k ts, t.tokens = .keyword k :: ts ∧ k.builtinWord ≠ none := by
  rcases typeRef_head t.type with ⟨n, ts, h⟩ | ⟨k, ts, h, hk⟩
  · exact Or.inl ⟨n, ts ++ t.args.tokens, by rw [CTypeInst.tokens, h]; rfl⟩
  · exact Or.inr ⟨k, ts ++ t.args.tokens, by rw [CTypeInst.tokens, h]; rfl, hk⟩

end Verif
