import Verif.Parser

/-!
# How expressions are grouped (C81)

The specification is the grammar as a language: the tokens of a parse tree (`CExpr.tokens`), how tightly each form of expression
binds (`CExpr.binds`), and that operands bind as tightly as their operator demands (`CExpr.Grouped`).
-/

namespace Verif

/-! ## Specification -/

/-- The token of a unary operator. -/
def UnaryOp.sym : UnaryOp → Punct
  | .plus => .plus | .minus => .minus | .bang => .bang | .tilde => .tilde

/-- The token of a multiplicative operator. -/
def MulOp.sym : MulOp → Punct
  | .multiply => .multiply | .divide => .divide | .modulo => .modulo

/-- The token of an additive operator. -/
def AddOp.sym : AddOp → Punct
  | .plus => .plus | .minus => .minus

/-- The tokens of a shift. -/
def ShiftOp.syms : ShiftOp → List Token
  | .left => [.sym .lshift] | .right => [.sym .gt, .sym .gt]

/-- The token of a relation. -/
def RelOp.sym : RelOp → Punct
  | .lt => .lt | .le => .le | .gt => .gt | .ge => .ge

/-- The token of a test for equality. -/
def EqOp.sym : EqOp → Punct
  | .eq => .eq | .ne => .ne

/-- What is written for a parse tree: /repo/internal/parser/ZserioParser.g4:349-373, alternative by alternative. -/
def CExpr.tokens : CExpr → List Token
  | .parenthesized e => .sym .lparen :: (e.tokens ++ [.sym .rparen])
  | .functionCall e => e.tokens ++ [.sym .lparen, .sym .rparen]
  | .array e i => e.tokens ++ .sym .lbracket :: (i.tokens ++ [.sym .rbracket])
  | .dot e field => e.tokens ++ [.sym .dot, .id field]
  | .isSet a b => .keyword .isset :: .sym .lparen :: (a.tokens ++ .sym .comma :: (b.tokens ++ [.sym .rparen]))
  | .lengthof e => .keyword .lengthof :: .sym .lparen :: (e.tokens ++ [.sym .rparen])
  | .valueof e => .keyword .valueof :: .sym .lparen :: (e.tokens ++ [.sym .rparen])
  | .numbits e => .keyword .numbits :: .sym .lparen :: (e.tokens ++ [.sym .rparen])
  | .unary op e => .sym op.sym :: e.tokens
  | .multiplicative op a b => a.tokens ++ .sym op.sym :: b.tokens
  | .additive op a b => a.tokens ++ .sym op.sym :: b.tokens
  | .shift op a b => a.tokens ++ (op.syms ++ b.tokens)
  | .relational op a b => a.tokens ++ .sym op.sym :: b.tokens
  | .equality op a b => a.tokens ++ .sym op.sym :: b.tokens
  | .bitwiseAnd a b => a.tokens ++ .sym .and :: b.tokens
  | .bitwiseXor a b => a.tokens ++ .sym .xor :: b.tokens
  | .bitwiseOr a b => a.tokens ++ .sym .or :: b.tokens
  | .logicalAnd a b => a.tokens ++ .sym .logicalAnd :: b.tokens
  | .logicalOr a b => a.tokens ++ .sym .logicalOr :: b.tokens
  | .ternary a b c => a.tokens ++ .sym .questionmark :: (b.tokens ++ .sym .colon :: c.tokens)
  | .literal kind text => [.literal kind text]
  | .index => [.keyword .index]
  | .identifier name => [.id name]

/-- How tightly an expression binds, from `? :` to names, calls, elements, members and everything in parentheses. -/
def CExpr.binds : CExpr → Nat
  | .ternary .. => 0
  | .logicalOr .. => 1
  | .logicalAnd .. => 2
  | .bitwiseOr .. => 3
  | .bitwiseXor .. => 4
  | .bitwiseAnd .. => 5
  | .equality .. => 6
  | .relational .. => 7
  | .shift .. => 8
  | .additive .. => 9
  | .multiplicative .. => 10
  | .unary .. => 11
  | _ => 12

/-- Two operands of an operator that binds with strength `k` and groups from the left. -/
def LeftToRight (k : Nat) (a b : CExpr) : Prop := k ≤ a.binds ∧ k < b.binds

/-- Operands bind as tightly as their operators demand: operators with two operands group from the left, `? :` from the right. -/
def CExpr.Grouped : CExpr → Prop
  | .parenthesized e => e.Grouped
  | .functionCall e => e.Grouped ∧ e.binds = 12
  | .array e i => e.Grouped ∧ i.Grouped ∧ e.binds = 12
  | .dot e _ => e.Grouped ∧ e.binds = 12
  | .isSet a b => a.Grouped ∧ b.Grouped
  | .lengthof e => e.Grouped
  | .valueof e => e.Grouped
  | .numbits e => e.Grouped
  | .unary _ e => e.Grouped ∧ 11 ≤ e.binds
  | .multiplicative _ a b => a.Grouped ∧ b.Grouped ∧ LeftToRight 10 a b
  | .additive _ a b => a.Grouped ∧ b.Grouped ∧ LeftToRight 9 a b
  | .shift _ a b => a.Grouped ∧ b.Grouped ∧ LeftToRight 8 a b
  | .relational _ a b => a.Grouped ∧ b.Grouped ∧ LeftToRight 7 a b
  | .equality _ a b => a.Grouped ∧ b.Grouped ∧ LeftToRight 6 a b
  | .bitwiseAnd a b => a.Grouped ∧ b.Grouped ∧ LeftToRight 5 a b
  | .bitwiseXor a b => a.Grouped ∧ b.Grouped ∧ LeftToRight 4 a b
  | .bitwiseOr a b => a.Grouped ∧ b.Grouped ∧ LeftToRight 3 a b
  | .logicalAnd a b => a.Grouped ∧ b.Grouped ∧ LeftToRight 2 a b
  | .logicalOr a b => a.Grouped ∧ b.Grouped ∧ LeftToRight 1 a b
  | .ternary a b c => a.Grouped ∧ b.Grouped ∧ c.Grouped ∧ 0 < a.binds
  | .literal .. => True
  | .index => True
  | .identifier _ => True

/-- The tokens that go on with an expression if they come right behind one. -/
def goesOn : Punct → Bool
  | .multiply | .divide | .modulo | .plus | .minus | .lshift | .gt | .lt | .le | .ge | .eq | .ne | .and | .xor | .or
  | .logicalAnd | .logicalOr | .questionmark | .lparen | .lbracket | .dot => true
  | _ => false

/-- What follows an expression does not go on with it. -/
def Ends : List Token → Prop
  | .sym s :: _ => goesOn s = false
  | _ => True

/-! ## Operators with two operands, together -/

/-- The tokens of an operator. -/
def BinOp.syms : BinOp → List Token
  | .mul op => [.sym op.sym] | .add op => [.sym op.sym] | .shift op => op.syms | .rel op => [.sym op.sym]
  | .eq op => [.sym op.sym] | .bitAnd => [.sym .and] | .bitXor => [.sym .xor] | .bitOr => [.sym .or]
  | .logAnd => [.sym .logicalAnd] | .logOr => [.sym .logicalOr]

theorem tokens_build (op : BinOp) (a b : CExpr) : (op.build a b).tokens = a.tokens ++ (op.syms ++ b.tokens) := by
  cases op <;> simp [BinOp.build, CExpr.tokens, BinOp.syms]

theorem binds_build (op : BinOp) (a b : CExpr) : (op.build a b).binds + 4 = op.level := by
  cases op <;> simp [BinOp.build, CExpr.binds, BinOp.level]

theorem grouped_build (op : BinOp) (a b : CExpr) :
    (op.build a b).Grouped ↔ a.Grouped ∧ b.Grouped ∧ op.level ≤ a.binds + 4 ∧ op.level < b.binds + 4 := by
  cases op <;> simp only [BinOp.build, CExpr.Grouped, LeftToRight, BinOp.level] <;>
    (constructor <;> (rintro ⟨h1, h2, h3, h4⟩; exact ⟨h1, h2, by omega, by omega⟩))

theorem right_eq (op : BinOp) : op.right = op.level + 1 := by cases op <;> rfl

theorem binOp_level (op : BinOp) : 5 ≤ op.level ∧ op.level ≤ 14 := by cases op <;> simp [BinOp.level]

theorem CExpr.binds_le (e : CExpr) : e.binds ≤ 12 := by cases e <;> simp [CExpr.binds]

/-- Induction over expressions with one case for all operators with two operands. -/
theorem CExpr.induct {P : CExpr → Prop}
    (parenthesized : ∀ e, P e → P (.parenthesized e)) (functionCall : ∀ e, P e → P (.functionCall e))
    (array : ∀ e i, P e → P i → P (.array e i)) (dot : ∀ e f, P e → P (.dot e f))
    (isSet : ∀ a b, P a → P b → P (.isSet a b)) (lengthof : ∀ e, P e → P (.lengthof e)) (valueof : ∀ e, P e → P (.valueof e))
    (numbits : ∀ e, P e → P (.numbits e)) (unary : ∀ op e, P e → P (.unary op e))
    (binary : ∀ (op : BinOp) a b, P a → P b → P (op.build a b))
    (ternary : ∀ a b c, P a → P b → P c → P (.ternary a b c))
    (literal : ∀ k t, P (.literal k t)) (index : P .index) (identifier : ∀ n, P (.identifier n)) (e : CExpr) : P e := by
  induction e with
  | parenthesized e h => exact parenthesized e h
  | functionCall e h => exact functionCall e h
  | array e i h1 h2 => exact array e i h1 h2
  | dot e f h => exact dot e f h
  | isSet a b h1 h2 => exact isSet a b h1 h2
  | lengthof e h => exact lengthof e h
  | valueof e h => exact valueof e h
  | numbits e h => exact numbits e h
  | unary op e h => exact unary op e h
  | multiplicative op a b h1 h2 => exact binary (.mul op) a b h1 h2
  | additive op a b h1 h2 => exact binary (.add op) a b h1 h2
  | shift op a b h1 h2 => exact binary (.shift op) a b h1 h2
  | relational op a b h1 h2 => exact binary (.rel op) a b h1 h2
  | equality op a b h1 h2 => exact binary (.eq op) a b h1 h2
  | bitwiseAnd a b h1 h2 => exact binary .bitAnd a b h1 h2
  | bitwiseXor a b h1 h2 => exact binary .bitXor a b h1 h2
  | bitwiseOr a b h1 h2 => exact binary .bitOr a b h1 h2
  | logicalAnd a b h1 h2 => exact binary .logAnd a b h1 h2
  | logicalOr a b h1 h2 => exact binary .logOr a b h1 h2
  | ternary a b c h1 h2 h3 => exact ternary a b c h1 h2 h3
  | literal k t => exact literal k t
  | index => exact index
  | identifier n => exact identifier n

/-- The first token of an expression is none that goes on with one, except signs and parentheses. -/
theorem tokens_ne_gt (e : CExpr) : ∃ t ts, e.tokens = t :: ts ∧ t ≠ .sym .gt := by
  induction e using CExpr.induct with
  | functionCall e ih => obtain ⟨t, ts, h, hne⟩ := ih; exact ⟨t, _, by simp [CExpr.tokens, h]; rfl, hne⟩
  | array e i ih _ => obtain ⟨t, ts, h, hne⟩ := ih; exact ⟨t, _, by simp [CExpr.tokens, h]; rfl, hne⟩
  | dot e f ih => obtain ⟨t, ts, h, hne⟩ := ih; exact ⟨t, _, by simp [CExpr.tokens, h]; rfl, hne⟩
  | binary op a b ih _ => obtain ⟨t, ts, h, hne⟩ := ih; exact ⟨t, _, by simp [tokens_build, h]; rfl, hne⟩
  | ternary a b c ih _ _ => obtain ⟨t, ts, h, hne⟩ := ih; exact ⟨t, _, by simp [CExpr.tokens, h]; rfl, hne⟩
  | unary op e _ => exact ⟨_, _, by simp [CExpr.tokens]; exact ⟨rfl, rfl⟩, by cases op <;> simp [UnaryOp.sym]⟩
  | _ => exact ⟨_, _, by simp [CExpr.tokens]; exact ⟨rfl, rfl⟩, by simp⟩

theorem nextCont_syms (op : BinOp) (b : CExpr) (rest : List Token) :
    nextCont (op.syms ++ (b.tokens ++ rest)) = some (.binary op, b.tokens ++ rest) := by
  obtain ⟨t, ts, h, hne⟩ := tokens_ne_gt b
  rw [h]
  cases op with
  | mul op => cases op <;> rfl
  | add op => cases op <;> rfl
  | shift op => cases op <;> rfl
  | rel op =>
    cases op
    · rfl
    · rfl
    · simp only [BinOp.syms, RelOp.sym, List.cons_append, List.nil_append]
      rw [nextCont]
      intro ts' heq
      exact hne (List.cons.inj heq).1
    · rfl
  | eq op => cases op <;> rfl
  | _ => rfl

theorem nextCont_ends {rest : List Token} (h : Ends rest) : nextCont rest = none := by
  match rest with
  | [] => rfl
  | .sym s :: ts => cases s <;> first | rfl | (simp [Ends, goesOn] at h)
  | .keyword _ :: _ => rfl
  | .literal _ _ :: _ => rfl
  | .id _ :: _ => rfl
  | .invalidString _ :: _ => rfl
  | .invalidToken _ :: _ => rfl

/-! ## More fuel does not hurt -/

theorem bind_some_mono {α β : Type} {x x' : Option α} {f f' : α → Option β} {r : β} (h : x.bind f = some r)
    (hx : ∀ a, x = some a → x' = some a) (hf : ∀ a, f a = some r → f' a = some r) : x'.bind f' = some r := by
  obtain ⟨a, ha, hfa⟩ := Option.bind_eq_some_iff.1 h
  exact Option.bind_eq_some_iff.2 ⟨a, hx a ha, hf a hfa⟩

/-- One step of fuel more changes no result. -/
def FuelOk (n : Nat) : Prop :=
  (∀ p ts r, expression n p ts = some r → expression (n + 1) p ts = some r) ∧
  (∀ ts r, primary n ts = some r → primary (n + 1) ts = some r) ∧
  (∀ p e ts r, expressionLoop n p e ts = some r → expressionLoop (n + 1) p e ts = some r)

theorem primary_mono {n : Nat} (h : FuelOk n) (ts : List Token) (r : CExpr × List Token)
    (hr : primary (n + 1) ts = some r) : primary (n + 2) ts = some r := by
  obtain ⟨he, -, -⟩ := h
  have one : ∀ {p ts} {f : CExpr × List Token → Option (CExpr × List Token)},
      (expression n p ts).bind f = some r → (expression (n + 1) p ts).bind f = some r :=
    fun hr => bind_some_mono hr (fun a => he _ _ a) fun _ hx => hx
  have two : ∀ {s ts p} {f : CExpr × List Token → Option (CExpr × List Token)},
      ((expect s ts).bind fun ts => (expression n p ts).bind f) = some r →
      ((expect s ts).bind fun ts => (expression (n + 1) p ts).bind f) = some r :=
    fun hr => bind_some_mono hr (fun _ hx => hx) fun _ hx => one hx
  match ts with
  | [] => exact hr
  | .invalidString _ :: _ => exact hr
  | .invalidToken _ :: _ => exact hr
  | .literal _ _ :: _ => exact hr
  | .id _ :: _ => exact hr
  | .sym s :: ts => cases s <;> first | exact hr | exact one hr
  | .keyword k :: ts =>
    cases k <;> first
      | exact hr
      | exact two hr
      | exact bind_some_mono hr (fun _ hx => hx) fun _ hr => bind_some_mono hr (fun a => he _ _ a) fun _ hr => two hr

theorem loop_mono {n : Nat} (h : FuelOk n) (p : Nat) (e : CExpr) (ts : List Token) (r : CExpr × List Token)
    (hr : expressionLoop (n + 1) p e ts = some r) : expressionLoop (n + 2) p e ts = some r := by
  obtain ⟨he, -, hl⟩ := h
  unfold expressionLoop at hr ⊢
  split at hr
  · exact hr
  · next c rest h =>
    split at hr
    · next hp =>
      rw [if_pos hp]
      cases c with
      | binary op =>
        exact bind_some_mono hr (fun a => he _ _ a) fun _ hr => hl _ _ _ _ hr
      | ternary =>
        exact bind_some_mono hr (fun a => he _ _ a) fun _ hr => bind_some_mono hr (fun _ hx => hx) fun _ hr =>
          bind_some_mono hr (fun a => he _ _ a) fun _ hr => hl _ _ _ _ hr
      | call => exact bind_some_mono hr (fun _ hx => hx) fun _ hr => hl _ _ _ _ hr
      | index =>
        exact bind_some_mono hr (fun a => he _ _ a) fun _ hr => bind_some_mono hr (fun _ hx => hx) fun _ hr => hl _ _ _ _ hr
      | dot => exact bind_some_mono hr (fun _ hx => hx) fun _ hr => hl _ _ _ _ hr
    · next hp => rw [if_neg hp]; exact hr

theorem fuelOk (n : Nat) : FuelOk n := by
  induction n with
  | zero =>
    refine ⟨fun p ts r h => ?_, fun ts r h => ?_, fun p e ts r h => ?_⟩ <;> simp [expression, primary, expressionLoop] at h
  | succ n ih =>
    refine ⟨fun p ts r h => ?_, primary_mono ih, loop_mono ih⟩
    rw [expression] at h ⊢
    exact bind_some_mono h (fun a => ih.2.1 _ a) fun _ h => ih.2.2 _ _ _ _ h

theorem expression_fuel {m n : Nat} (hmn : m ≤ n) {p : Nat} {ts : List Token} {r : CExpr × List Token}
    (h : expression m p ts = some r) : expression n p ts = some r := by
  induction n, hmn using Nat.le_induction with
  | base => exact h
  | succ n _ ih => exact (fuelOk n).1 _ _ _ ih

theorem loop_fuel {m n : Nat} (hmn : m ≤ n) {p : Nat} {e : CExpr} {ts : List Token} {r : CExpr × List Token}
    (h : expressionLoop m p e ts = some r) : expressionLoop n p e ts = some r := by
  induction n, hmn using Nat.le_induction with
  | base => exact h
  | succ n _ ih => exact (fuelOk n).2.2 _ _ _ _ ih

/-! ## What is written is read -/

/-- What comes behind an expression does not take its end away from it. -/
def Follows (e : CExpr) (rest : List Token) : Prop :=
  ∀ c ts, nextCont rest = some (c, ts) → (c.level ≤ e.binds + 4 ∧ 4 < e.binds + 4) ∨ e.binds = 12

theorem loop_binary {p n : Nat} {e : CExpr} {ts rest : List Token} {op : BinOp} (h : nextCont ts = some (.binary op, rest))
    (hp : p ≤ op.level) : expressionLoop (n + 1) p e ts =
      (expression n op.right rest).bind fun x => expressionLoop n p (op.build e x.1) x.2 := by
  rw [expressionLoop, h]
  exact if_pos hp

theorem loop_ternary {p n : Nat} {e : CExpr} {ts rest : List Token} (h : nextCont ts = some (.ternary, rest)) (hp : p ≤ 4) :
    expressionLoop (n + 1) p e ts =
      (expression n 0 rest).bind fun x => (expect .colon x.2).bind fun ts => (expression n 4 ts).bind fun y =>
        expressionLoop n p (.ternary e x.1 y.1) y.2 := by
  rw [expressionLoop, h]
  exact if_pos hp

theorem loop_call {p n : Nat} {e : CExpr} {ts rest : List Token} (h : nextCont ts = some (.call, rest)) (hp : p ≤ 22) :
    expressionLoop (n + 1) p e ts = (expect .rparen rest).bind fun ts => expressionLoop n p (.functionCall e) ts := by
  rw [expressionLoop, h]
  exact if_pos hp

theorem loop_index {p n : Nat} {e : CExpr} {ts rest : List Token} (h : nextCont ts = some (.index, rest)) (hp : p ≤ 21) :
    expressionLoop (n + 1) p e ts = (expression n 0 rest).bind fun x => (expect .rbracket x.2).bind fun ts =>
      expressionLoop n p (.array e x.1) ts := by
  rw [expressionLoop, h]
  exact if_pos hp

theorem loop_dot {p n : Nat} {e : CExpr} {ts rest : List Token} (h : nextCont ts = some (.dot, rest)) (hp : p ≤ 20) :
    expressionLoop (n + 1) p e ts = (expectId rest).bind fun x => expressionLoop n p (.dot e x.1) x.2 := by
  rw [expressionLoop, h]
  exact if_pos hp

theorem follows_ends {e : CExpr} {rest : List Token} (h : Ends rest) : Follows e rest := by
  intro c ts hc
  rw [nextCont_ends h] at hc
  exact nomatch hc

theorem loop_stops {p : Nat} {e : CExpr} {rest : List Token} (h : ∀ c ts, nextCont rest = some (c, ts) → c.level < p) (n : Nat) :
    expressionLoop (n + 1) p e rest = some (e, rest) := by
  unfold expressionLoop
  split
  · rfl
  · next c ts hc => rw [if_neg (Nat.not_le.2 (h c ts hc))]

/-- In front of `rest`, an expression is read up to the point where the loop goes on. -/
def ReadBy (e : CExpr) : Prop :=
  ∀ (p : Nat) (rest : List Token) (m : Nat) (r : CExpr × List Token), e.Grouped → p ≤ 15 → p ≤ e.binds + 4 → Follows e rest →
    expressionLoop m p e rest = some r → expression (m + 3 * e.tokens.length) p (e.tokens ++ rest) = some r

theorem readBy_inner {e : CExpr} (h : ReadBy e) (hg : e.Grouped) {rest : List Token} (hr : Ends rest) {n : Nat}
    (hn : 1 + 3 * e.tokens.length ≤ n) {p : Nat} (hp : p ≤ 15) (hpe : p ≤ e.binds + 4) :
    expression n p (e.tokens ++ rest) = some (e, rest) := by
  refine expression_fuel hn (h p rest 1 _ hg hp hpe (follows_ends hr) ?_)
  refine loop_stops (fun c ts hc => ?_) 0
  rw [nextCont_ends hr] at hc
  exact nomatch hc

theorem ends_rparen (ts : List Token) : Ends (.sym .rparen :: ts) := rfl
theorem ends_rbracket (ts : List Token) : Ends (.sym .rbracket :: ts) := rfl
theorem ends_comma (ts : List Token) : Ends (.sym .comma :: ts) := rfl
theorem ends_colon (ts : List Token) : Ends (.sym .colon :: ts) := rfl

/-- The cases of `ReadBy` for what an expression begins with. -/
theorem readBy_primary {e : CExpr} {rest : List Token} {m p : Nat} {r : CExpr × List Token} (hlen : 1 ≤ e.tokens.length)
    (h : primary (m + 3 * e.tokens.length - 1) (e.tokens ++ rest) = some (e, rest)) (hr : expressionLoop m p e rest = some r) :
    expression (m + 3 * e.tokens.length) p (e.tokens ++ rest) = some r := by
  obtain ⟨k, hk⟩ : ∃ k, m + 3 * e.tokens.length = k + 1 := ⟨m + 3 * e.tokens.length - 1, by omega⟩
  rw [hk] at h ⊢
  rw [expression]
  simp only [Nat.add_sub_cancel] at h
  rw [h]
  exact loop_fuel (by omega) hr

theorem readBy (e : CExpr) : ReadBy e := by
  induction e using CExpr.induct with
  | parenthesized e ih =>
    intro p rest m r hg hp hpe hf hr
    refine readBy_primary (by simp [CExpr.tokens]) ?_ hr
    obtain ⟨k, hk⟩ : ∃ k, m + 3 * (CExpr.parenthesized e).tokens.length - 1 = k + 1 :=
      ⟨m + 3 * (CExpr.parenthesized e).tokens.length - 2, by simp [CExpr.tokens]; omega⟩
    rw [hk]
    simp only [CExpr.tokens, List.cons_append, List.append_assoc, List.nil_append, List.length_cons, List.length_append,
      List.length_nil] at hk ⊢
    rw [primary, readBy_inner ih hg (ends_rparen rest) (by omega) (by omega) (by omega)]
    rfl
  | functionCall e ih =>
    intro p rest m r hg hp hpe hf hr
    have := ih p (.sym .lparen :: .sym .rparen :: rest) (m + 1) r hg.1 hp (by rw [hg.2]; omega) (fun _ _ _ => Or.inr hg.2) (by
      rw [loop_call rfl (by omega)]
      exact hr)
    simp only [CExpr.tokens, List.append_assoc, List.cons_append, List.nil_append, List.length_append, List.length_cons,
      List.length_nil]
    exact expression_fuel (by omega) this
  | array e i ihe ihi =>
    intro p rest m r hg hp hpe hf hr
    have := ihe p (.sym .lbracket :: (i.tokens ++ .sym .rbracket :: rest)) (m + 3 * i.tokens.length + 2) r hg.1 hp
      (by rw [hg.2.2]; omega) (fun _ _ _ => Or.inr hg.2.2) (by
      rw [loop_index rfl (by omega), readBy_inner ihi hg.2.1 (ends_rbracket rest) (by omega) (by omega) (by omega)]
      exact loop_fuel (by omega) hr)
    simp only [CExpr.tokens, List.append_assoc, List.cons_append, List.nil_append, List.length_append, List.length_cons,
      List.length_nil]
    exact expression_fuel (by omega) this
  | dot e f ih =>
    intro p rest m r hg hp hpe hf hr
    have := ih p (.sym .dot :: .id f :: rest) (m + 1) r hg.1 hp (by rw [hg.2]; omega) (fun _ _ _ => Or.inr hg.2) (by
      rw [loop_dot rfl (by omega)]
      exact hr)
    simp only [CExpr.tokens, List.append_assoc, List.cons_append, List.nil_append, List.length_append, List.length_cons,
      List.length_nil]
    exact expression_fuel (by omega) this
  | isSet a b iha ihb =>
    intro p rest m r hg hp hpe hf hr
    refine readBy_primary (by simp [CExpr.tokens]) ?_ hr
    obtain ⟨k, hk⟩ : ∃ k, m + 3 * (CExpr.isSet a b).tokens.length - 1 = k + 1 :=
      ⟨m + 3 * (CExpr.isSet a b).tokens.length - 2, by simp [CExpr.tokens]; omega⟩
    rw [hk]
    simp only [CExpr.tokens, List.cons_append, List.append_assoc, List.nil_append, List.length_cons, List.length_append,
      List.length_nil] at hk ⊢
    rw [primary]
    simp only [expect, if_true, Option.bind_eq_bind, Option.bind_some]
    rw [readBy_inner iha hg.1 (ends_comma _) (by omega) (by omega) (by omega)]
    simp only [if_true, Option.bind_some]
    rw [readBy_inner ihb hg.2 (ends_rparen _) (by omega) (by omega) (by omega)]
    rfl
  | lengthof e ih =>
    intro p rest m r hg hp hpe hf hr
    refine readBy_primary (by simp [CExpr.tokens]) ?_ hr
    obtain ⟨k, hk⟩ : ∃ k, m + 3 * (CExpr.lengthof e).tokens.length - 1 = k + 1 :=
      ⟨m + 3 * (CExpr.lengthof e).tokens.length - 2, by simp [CExpr.tokens]; omega⟩
    rw [hk]
    simp only [CExpr.tokens, List.cons_append, List.append_assoc, List.nil_append, List.length_cons, List.length_append,
      List.length_nil] at hk ⊢
    rw [primary]
    simp only [expect, if_true, Option.bind_eq_bind, Option.bind_some]
    rw [readBy_inner ih hg (ends_rparen _) (by omega) (by omega) (by omega)]
    rfl
  | valueof e ih =>
    intro p rest m r hg hp hpe hf hr
    refine readBy_primary (by simp [CExpr.tokens]) ?_ hr
    obtain ⟨k, hk⟩ : ∃ k, m + 3 * (CExpr.valueof e).tokens.length - 1 = k + 1 :=
      ⟨m + 3 * (CExpr.valueof e).tokens.length - 2, by simp [CExpr.tokens]; omega⟩
    rw [hk]
    simp only [CExpr.tokens, List.cons_append, List.append_assoc, List.nil_append, List.length_cons, List.length_append,
      List.length_nil] at hk ⊢
    rw [primary]
    simp only [expect, if_true, Option.bind_eq_bind, Option.bind_some]
    rw [readBy_inner ih hg (ends_rparen _) (by omega) (by omega) (by omega)]
    rfl
  | numbits e ih =>
    intro p rest m r hg hp hpe hf hr
    refine readBy_primary (by simp [CExpr.tokens]) ?_ hr
    obtain ⟨k, hk⟩ : ∃ k, m + 3 * (CExpr.numbits e).tokens.length - 1 = k + 1 :=
      ⟨m + 3 * (CExpr.numbits e).tokens.length - 2, by simp [CExpr.tokens]; omega⟩
    rw [hk]
    simp only [CExpr.tokens, List.cons_append, List.append_assoc, List.nil_append, List.length_cons, List.length_append,
      List.length_nil] at hk ⊢
    rw [primary]
    simp only [expect, if_true, Option.bind_eq_bind, Option.bind_some]
    rw [readBy_inner ih hg (ends_rparen _) (by omega) (by omega) (by omega)]
    rfl
  | unary op e ih =>
    intro p rest m r hg hp hpe hf hr
    refine readBy_primary (by simp [CExpr.tokens]) ?_ hr
    obtain ⟨k, hk⟩ : ∃ k, m + 3 * (CExpr.unary op e).tokens.length - 1 = k + 1 :=
      ⟨m + 3 * (CExpr.unary op e).tokens.length - 2, by simp [CExpr.tokens]; omega⟩
    rw [hk]
    simp only [CExpr.tokens, List.cons_append, List.length_cons] at hk ⊢
    have hin : expression k 15 (e.tokens ++ rest) = some (e, rest) := by
      refine expression_fuel (by omega) (ih 15 rest 1 _ hg.1 (by omega) (by have := hg.2; omega) (fun c ts hc => ?_)
        (loop_stops (fun c ts hc => ?_) 0))
      · have := hf c ts hc
        have h2 := hg.2
        simp only [CExpr.binds] at this
        omega
      · have := hf c ts hc
        simp only [CExpr.binds] at this
        have hl : c.level ≤ 15 := by omega
        cases c <;> simp [Cont.level] at hl ⊢
        rename_i op; have := binOp_level op; omega
    cases op <;> simp only [UnaryOp.sym] <;> rw [primary, hin] <;> rfl
  | binary op a b iha ihb =>
    intro p rest m r hg hp hpe hf hr
    rw [grouped_build] at hg
    rw [binds_build] at hpe
    obtain ⟨hga, hgb, hla, hlb⟩ := hg
    have hlev := binOp_level op
    have hnext : ∀ c ts, nextCont rest = some (c, ts) → c.level < op.right := by
      intro c ts hc
      have h1 := binds_build op a b
      rcases hf c ts hc with h | h <;> rw [right_eq] <;> omega
    have := iha p (op.syms ++ (b.tokens ++ rest)) (m + 3 * b.tokens.length + 2) r hga hp (by omega) (fun c ts hc => by
      rw [nextCont_syms] at hc
      cases hc
      exact Or.inl ⟨hla, by omega⟩) (by
      rw [loop_binary (nextCont_syms op b rest) hpe]
      have hb := ihb op.right rest 1 (b, rest) hgb (by rw [right_eq]; omega) (by rw [right_eq]; omega)
        (fun c ts hc => Or.inl (by have := hnext c ts hc; rw [right_eq] at this; omega)) (loop_stops hnext 0)
      rw [expression_fuel (by omega) hb]
      exact loop_fuel (by omega) hr)
    rw [tokens_build]
    simp only [List.append_assoc, List.length_append]
    refine expression_fuel ?_ this
    have : 1 ≤ op.syms.length := by
      cases op <;> simp [BinOp.syms]
      rename_i op; cases op <;> simp [ShiftOp.syms]
    omega
  | ternary a b c iha ihb ihc =>
    intro p rest m r hg hp hpe hf hr
    obtain ⟨hga, hgb, hgc, hla⟩ := hg
    have hp4 : p ≤ 4 := by simpa [CExpr.binds] using hpe
    have hnext : ∀ c ts, nextCont rest = some (c, ts) → False := by
      intro c ts hc
      have := hf c ts hc
      simp [CExpr.binds] at this
    have := iha p (.sym .questionmark :: (b.tokens ++ .sym .colon :: (c.tokens ++ rest)))
      (m + 3 * b.tokens.length + 3 * c.tokens.length + 2) r hga hp (by omega) (fun c ts hc => by
        cases hc
        exact Or.inl ⟨by simp [Cont.level], by omega⟩) (by
      rw [loop_ternary rfl hp4, readBy_inner ihb hgb (ends_colon _) (by omega) (by omega) (by omega)]
      simp only [expect, if_true, Option.bind_some]
      have hc := ihc 4 rest 1 (c, rest) hgc (by omega) (by omega)
        (fun c ts hc => (hnext c ts hc).elim) (loop_stops (fun c ts hc => (hnext c ts hc).elim) 0)
      rw [expression_fuel (by omega) hc]
      exact loop_fuel (by omega) hr)
    simp only [CExpr.tokens, List.append_assoc, List.cons_append, List.length_append, List.length_cons]
    exact expression_fuel (by omega) this
  | literal k t =>
    intro p rest m r hg hp hpe hf hr
    exact readBy_primary (by simp [CExpr.tokens]) (by simp [CExpr.tokens, primary]) hr
  | index =>
    intro p rest m r hg hp hpe hf hr
    exact readBy_primary (by simp [CExpr.tokens]) (by simp [CExpr.tokens, primary]) hr
  | identifier n =>
    intro p rest m r hg hp hpe hf hr
    exact readBy_primary (by simp [CExpr.tokens]) (by simp [CExpr.tokens, primary]) hr

/-! ## What is read was written -/

theorem cont_level (c : Cont) : 4 ≤ c.level := by
  cases c <;> simp [Cont.level]
  rename_i op; have := binOp_level op; omega

/-- The tokens an operator begins with. -/
def Cont.syms : Cont → List Token
  | .binary op => op.syms | .ternary => [.sym .questionmark] | .call => [.sym .lparen] | .index => [.sym .lbracket]
  | .dot => [.sym .dot]

theorem nextCont_inv {ts rest : List Token} {c : Cont} (h : nextCont ts = some (c, rest)) : ts = c.syms ++ rest := by
  unfold nextCont at h
  split at h <;> first | (cases h; done) | (cases h; rfl)

theorem ends_of_nextCont {rest : List Token} (h : nextCont rest = none) : Ends rest := by
  match rest with
  | [] => trivial
  | .sym s :: ts =>
    cases s <;> first
      | (cases h; done)
      | rfl
      | skip
    match ts with
    | [] => exact nomatch h
    | .sym s :: _ => cases s <;> cases h
    | .keyword _ :: _ => exact nomatch h
    | .literal _ _ :: _ => exact nomatch h
    | .id _ :: _ => exact nomatch h
    | .invalidString _ :: _ => exact nomatch h
    | .invalidToken _ :: _ => exact nomatch h
  | .keyword _ :: _ => trivial
  | .literal _ _ :: _ => trivial
  | .id _ :: _ => trivial
  | .invalidString _ :: _ => trivial
  | .invalidToken _ :: _ => trivial

theorem expect_inv {s : Punct} {ts rest : List Token} (h : expect s ts = some rest) : ts = .sym s :: rest := by
  unfold expect at h
  split at h
  · split at h
    · next hs => cases h; rw [hs]
    · exact nomatch h
  · exact nomatch h

theorem expectId_inv {ts rest : List Token} {name : Ident} (h : expectId ts = some (name, rest)) : ts = .id name :: rest := by
  unfold expectId at h
  split at h
  · cases h; rfl
  · exact nomatch h

/-- Every operator that could go on binds less than `p` demands. -/
def StopsAt (p : Nat) (rest : List Token) : Prop := ∀ c ts, nextCont rest = some (c, ts) → c.level < p

/-- With this fuel, what is read was written, and is grouped. -/
def SoundAt (n : Nat) : Prop :=
  (∀ p ts e rest, p ≤ 15 → expression n p ts = some (e, rest) →
    ts = e.tokens ++ rest ∧ e.Grouped ∧ p ≤ e.binds + 4 ∧ StopsAt p rest) ∧
  (∀ ts e rest, primary n ts = some (e, rest) → ts = e.tokens ++ rest ∧ e.Grouped ∧ 11 ≤ e.binds ∧ Follows e rest) ∧
  (∀ p l ts e rest, p ≤ 15 → l.Grouped → p ≤ l.binds + 4 → Follows l ts → expressionLoop n p l ts = some (e, rest) →
    l.tokens ++ ts = e.tokens ++ rest ∧ e.Grouped ∧ p ≤ e.binds + 4 ∧ StopsAt p rest)

theorem sound_primary {n : Nat} (h : SoundAt n) (ts : List Token) (e : CExpr) (rest : List Token)
    (hr : primary (n + 1) ts = some (e, rest)) : ts = e.tokens ++ rest ∧ e.Grouped ∧ 11 ≤ e.binds ∧ Follows e rest := by
  obtain ⟨he, -, -⟩ := h
  have follows12 : ∀ {e : CExpr} {rest}, e.binds = 12 → Follows e rest := fun h _ _ _ => Or.inr h
  have un : ∀ {op : UnaryOp} {ts : List Token},
      ((expression n 15 ts).bind fun x => some (CExpr.unary op x.1, x.2)) = some (e, rest) →
      .sym op.sym :: ts = e.tokens ++ rest ∧ e.Grouped ∧ 11 ≤ e.binds ∧ Follows e rest := by
    intro op ts hr
    obtain ⟨⟨a, ts1⟩, ha, hr1⟩ := Option.bind_eq_some_iff.1 hr
    cases hr1
    obtain ⟨rfl, hg, hb, hs⟩ := he _ _ _ _ (le_refl _) ha
    exact ⟨by simp [CExpr.tokens], ⟨hg, by simp only; omega⟩, by simp [CExpr.binds],
      fun c ts hc => Or.inl ⟨by have := hs c ts hc; simp only [CExpr.binds]; omega, by simp [CExpr.binds]⟩⟩
  have call : ∀ {k : Keyword} {F : CExpr → CExpr} {ts : List Token} (_ : ∀ x, (F x).tokens = .keyword k :: .sym .lparen :: (x.tokens ++ [.sym .rparen]))
      (_ : ∀ x, (F x).Grouped = x.Grouped) (_ : ∀ x, (F x).binds = 12),
      ((expect .lparen ts).bind fun ts => (expression n 0 ts).bind fun x => (expect .rparen x.2).bind fun ts =>
        some (F x.1, ts)) = some (e, rest) →
      .keyword k :: ts = e.tokens ++ rest ∧ e.Grouped ∧ 11 ≤ e.binds ∧ Follows e rest := by
    intro k F ts htok hgr hbi hr
    obtain ⟨ts1, h1, hr1⟩ := Option.bind_eq_some_iff.1 hr
    obtain ⟨⟨a, ts2⟩, ha, hr2⟩ := Option.bind_eq_some_iff.1 hr1
    obtain ⟨ts3, h3, hr3⟩ := Option.bind_eq_some_iff.1 hr2
    cases hr3
    obtain ⟨rfl, hg, -, -⟩ := he _ _ _ _ (by omega) ha
    rw [expect_inv h1]
    have := expect_inv h3
    simp only at this
    subst this
    exact ⟨by simp [htok], by rw [hgr]; exact hg, by rw [hbi]; omega, follows12 (hbi a)⟩
  match ts with
  | [] => exact nomatch hr
  | .invalidString _ :: _ => exact nomatch hr
  | .invalidToken _ :: _ => exact nomatch hr
  | .literal _ _ :: _ => cases hr; exact ⟨rfl, trivial, by simp [CExpr.binds], follows12 rfl⟩
  | .id _ :: _ => cases hr; exact ⟨rfl, trivial, by simp [CExpr.binds], follows12 rfl⟩
  | .sym s :: ts =>
    cases s <;> first
      | (cases hr)
      | exact un (op := .plus) hr
      | exact un (op := .minus) hr
      | exact un (op := .bang) hr
      | exact un (op := .tilde) hr
      | skip
    obtain ⟨⟨a, ts2⟩, ha, hr1⟩ := Option.bind_eq_some_iff.1 hr
    obtain ⟨ts3, h3, hr2⟩ := Option.bind_eq_some_iff.1 hr1
    cases hr2
    obtain ⟨rfl, hg, -, -⟩ := he _ _ _ _ (by omega) ha
    have := expect_inv h3
    subst this
    exact ⟨by simp [CExpr.tokens], hg, by simp [CExpr.binds], follows12 rfl⟩
  | .keyword k :: ts =>
    cases k <;> first
      | (cases hr; done)
      | exact call (F := .lengthof) (fun _ => rfl) (fun _ => rfl) (fun _ => rfl) hr
      | exact call (F := .valueof) (fun _ => rfl) (fun _ => rfl) (fun _ => rfl) hr
      | exact call (F := .numbits) (fun _ => rfl) (fun _ => rfl) (fun _ => rfl) hr
      | (cases hr; exact ⟨rfl, trivial, by simp [CExpr.binds], follows12 rfl⟩)
      | skip
    obtain ⟨ts1, h1, hr1⟩ := Option.bind_eq_some_iff.1 hr
    obtain ⟨⟨a, ts2⟩, ha, hr2⟩ := Option.bind_eq_some_iff.1 hr1
    obtain ⟨ts3, h3, hr3⟩ := Option.bind_eq_some_iff.1 hr2
    obtain ⟨⟨b, ts4⟩, hb, hr4⟩ := Option.bind_eq_some_iff.1 hr3
    obtain ⟨ts5, h5, hr5⟩ := Option.bind_eq_some_iff.1 hr4
    cases hr5
    obtain ⟨rfl, hg, -, -⟩ := he _ _ _ _ (by omega) ha
    obtain ⟨rfl, hg', -, -⟩ := he _ _ _ _ (by omega) hb
    rw [expect_inv h1]
    have h3 := expect_inv h3
    have h5 := expect_inv h5
    subst h3 h5
    exact ⟨by simp [CExpr.tokens], ⟨hg, hg'⟩, by simp [CExpr.binds], follows12 rfl⟩

theorem sound_loop {n : Nat} (h : SoundAt n) (p : Nat) (l : CExpr) (ts : List Token) (e : CExpr) (rest : List Token)
    (hp : p ≤ 15) (hl : l.Grouped) (hpl : p ≤ l.binds + 4) (hf : Follows l ts)
    (hr : expressionLoop (n + 1) p l ts = some (e, rest)) :
    l.tokens ++ ts = e.tokens ++ rest ∧ e.Grouped ∧ p ≤ e.binds + 4 ∧ StopsAt p rest := by
  obtain ⟨he, -, hloop⟩ := h
  have hle := l.binds_le
  cases hc : nextCont ts with
  | none =>
    rw [expressionLoop, hc] at hr
    cases hr
    exact ⟨rfl, hl, hpl, fun c ts' h => by rw [hc] at h; exact nomatch h⟩
  | some x =>
    obtain ⟨c, after⟩ := x
    by_cases hpc : p ≤ c.level
    · have hts := nextCont_inv hc
      have hfc := hf c after hc
      have h12 : 16 < c.level → l.binds = 12 := by omega
      subst hts
      cases c with
      | binary op =>
        rw [loop_binary hc hpc] at hr
        obtain ⟨⟨b, ts1⟩, hb, hr1⟩ := Option.bind_eq_some_iff.1 hr
        have hlev := binOp_level op
        have hright := right_eq op
        obtain ⟨rfl, hgb, hpb, hsb⟩ := he _ _ _ _ (by omega) hb
        have hbb := binds_build op l b
        simp only [Cont.level] at hfc hpc
        obtain ⟨h1, h2, h3, h4⟩ := hloop _ _ _ _ _ hp ((grouped_build op l b).2 ⟨hl, hgb, by omega, by omega⟩) (by omega)
          (fun c ts' hc' => Or.inl ⟨by have := hsb c ts' hc'; omega, by omega⟩) hr1
        refine ⟨?_, h2, h3, h4⟩
        rw [← h1, tokens_build]
        simp [Cont.syms]
      | ternary =>
        rw [loop_ternary hc hpc] at hr
        obtain ⟨⟨b, ts1⟩, hb, hr1⟩ := Option.bind_eq_some_iff.1 hr
        obtain ⟨ts2, h2, hr2⟩ := Option.bind_eq_some_iff.1 hr1
        obtain ⟨⟨d, ts3⟩, hd, hr3⟩ := Option.bind_eq_some_iff.1 hr2
        obtain ⟨rfl, hgb, -, -⟩ := he _ _ _ _ (by omega) hb
        obtain ⟨rfl, hgd, -, hsd⟩ := he _ _ _ _ (by omega) hd
        have h2 := expect_inv h2
        simp only at h2
        subst h2
        simp only [Cont.level] at hfc hpc
        obtain ⟨h1, h2, h3, h4⟩ := hloop p (.ternary l b d) _ _ _ hp ⟨hl, hgb, hgd, by omega⟩ (by simpa [CExpr.binds] using hpc)
          (fun c ts' hc' => by have := hsd c ts' hc'; have := cont_level c; omega) hr3
        refine ⟨?_, h2, h3, h4⟩
        rw [← h1]
        simp [Cont.syms, CExpr.tokens]
      | call =>
        rw [loop_call hc hpc] at hr
        obtain ⟨ts2, h2, hr1⟩ := Option.bind_eq_some_iff.1 hr
        rw [expect_inv h2]
        obtain ⟨h1, h2, h3, h4⟩ := hloop p (.functionCall l) _ _ _ hp ⟨hl, h12 (by simp [Cont.level])⟩ (by simp only [CExpr.binds]; omega)
          (fun _ _ _ => Or.inr rfl) hr1
        refine ⟨?_, h2, h3, h4⟩
        rw [← h1]
        simp [Cont.syms, CExpr.tokens]
      | index =>
        rw [loop_index hc hpc] at hr
        obtain ⟨⟨i, ts1⟩, hi, hr1⟩ := Option.bind_eq_some_iff.1 hr
        obtain ⟨ts2, h2, hr2⟩ := Option.bind_eq_some_iff.1 hr1
        obtain ⟨rfl, hgi, -, -⟩ := he _ _ _ _ (by omega) hi
        have h2 := expect_inv h2
        simp only at h2
        subst h2
        obtain ⟨h1, h2, h3, h4⟩ := hloop p (.array l i) _ _ _ hp ⟨hl, hgi, h12 (by simp [Cont.level])⟩ (by simp only [CExpr.binds]; omega)
          (fun _ _ _ => Or.inr rfl) hr2
        refine ⟨?_, h2, h3, h4⟩
        rw [← h1]
        simp [Cont.syms, CExpr.tokens]
      | dot =>
        rw [loop_dot hc hpc] at hr
        obtain ⟨⟨f, ts2⟩, h2, hr1⟩ := Option.bind_eq_some_iff.1 hr
        rw [expectId_inv h2]
        obtain ⟨h1, h2, h3, h4⟩ := hloop p (.dot l f) _ _ _ hp ⟨hl, h12 (by simp [Cont.level])⟩ (by simp only [CExpr.binds]; omega)
          (fun _ _ _ => Or.inr rfl) hr1
        refine ⟨?_, h2, h3, h4⟩
        rw [← h1]
        simp [Cont.syms, CExpr.tokens]
    · rw [expressionLoop, hc] at hr
      have hr' : (some (l, ts) : Option (CExpr × List Token)) = some (e, rest) := (if_neg hpc).symm.trans hr
      cases hr'
      refine ⟨rfl, hl, hpl, fun c' ts' h => ?_⟩
      rw [hc] at h
      cases h
      omega

theorem soundAt (n : Nat) : SoundAt n := by
  induction n with
  | zero =>
    refine ⟨fun p ts e rest _ h => ?_, fun ts e rest h => ?_, fun p l ts e rest _ _ _ _ h => ?_⟩ <;>
      simp [expression, primary, expressionLoop] at h
  | succ n ih =>
    refine ⟨fun p ts e rest hp h => ?_, sound_primary ih, sound_loop ih⟩
    rw [expression] at h
    obtain ⟨⟨l, ts1⟩, hl, h'⟩ := Option.bind_eq_some_iff.1 h
    obtain ⟨rfl, hg, hb, hf⟩ := ih.2.1 _ _ _ hl
    exact ih.2.2 _ _ _ _ _ hp hg (by omega) hf h'

/-! ## Everything the grammar allows is read -/

/-- Something may follow an operand at the end of an expression: it then belongs to the last operand. -/
theorem regroup_postfix {F : CExpr → CExpr} {post : List Token} (htok : ∀ e, (F e).tokens = e.tokens ++ post)
    (hgr : ∀ e, e.Grouped → e.binds = 12 → (F e).Grouped) (hbi : ∀ e, (F e).binds = 12) (e : CExpr) (he : e.Grouped) :
    ∃ e' : CExpr, e'.Grouped ∧ e'.binds = e.binds ∧ e'.tokens = e.tokens ++ post := by
  induction e using CExpr.induct with
  | unary op e ih =>
    obtain ⟨e', h1, h2, h3⟩ := ih he.1
    exact ⟨.unary op e', ⟨h1, by rw [h2]; exact he.2⟩, rfl, by simp [CExpr.tokens, h3]⟩
  | binary op a b _ ih =>
    rw [grouped_build] at he
    obtain ⟨e', h1, h2, h3⟩ := ih he.2.1
    refine ⟨op.build a e', (grouped_build ..).2 ⟨he.1, h1, he.2.2.1, by rw [h2]; exact he.2.2.2⟩, ?_, by simp [tokens_build, h3]⟩
    have := binds_build op a e'
    have := binds_build op a b
    omega
  | ternary a b c _ _ ih =>
    obtain ⟨e', h1, h2, h3⟩ := ih he.2.2.1
    exact ⟨.ternary a b e', ⟨he.1, he.2.1, h1, he.2.2.2⟩, rfl, by simp [CExpr.tokens, h3]⟩
  | _ => exact ⟨_, hgr _ he rfl, hbi _, htok _⟩

/-- A sign in front of an expression belongs to the first operand. -/
theorem regroup_unary (op : UnaryOp) (e : CExpr) (he : e.Grouped) :
    ∃ e' : CExpr, e'.Grouped ∧ e'.binds = min 11 e.binds ∧ e'.tokens = .sym op.sym :: e.tokens := by
  by_cases h11 : 11 ≤ e.binds
  · exact ⟨.unary op e, ⟨he, h11⟩, by rw [show (CExpr.unary op _).binds = 11 from rfl]; omega, rfl⟩
  · induction e using CExpr.induct with
    | binary o a b ih _ =>
      have hb := binds_build o a b
      rw [grouped_build] at he
      have : ∃ e' : CExpr, e'.Grouped ∧ e'.binds = min 11 a.binds ∧ e'.tokens = .sym op.sym :: a.tokens := by
        by_cases h : 11 ≤ a.binds
        · exact ⟨.unary op a, ⟨he.1, h⟩, by rw [show (CExpr.unary op _).binds = 11 from rfl]; omega, rfl⟩
        · exact ih he.1 h
      obtain ⟨e', h1, h2, h3⟩ := this
      have hb' := binds_build o e' b
      have := binOp_level o
      exact ⟨o.build e' b, (grouped_build ..).2 ⟨h1, he.2.1, by omega, he.2.2.2⟩, by omega, by simp [tokens_build, h3]⟩
    | ternary a b c ih _ _ =>
      have : ∃ e' : CExpr, e'.Grouped ∧ e'.binds = min 11 a.binds ∧ e'.tokens = .sym op.sym :: a.tokens := by
        by_cases h : 11 ≤ a.binds
        · exact ⟨.unary op a, ⟨he.1, h⟩, by rw [show (CExpr.unary op _).binds = 11 from rfl]; omega, rfl⟩
        · exact ih he.1 h
      obtain ⟨e', h1, h2, h3⟩ := this
      have := he.2.2.2
      exact ⟨.ternary e' b c, ⟨h1, he.2.1, he.2.2.1, by omega⟩, by simp [CExpr.binds], by simp [CExpr.tokens, h3]⟩
    | _ => simp [CExpr.binds] at h11

/-- An expression that does not bind as tightly as signs is one of an operator with two operands or of `? :`. -/
theorem loose_cases (e : CExpr) (h : e.binds < 11) : (∃ op a b, e = BinOp.build op a b) ∨ (∃ a b c, e = .ternary a b c) := by
  induction e using CExpr.induct with
  | binary op a b _ _ => exact Or.inl ⟨op, a, b, rfl⟩
  | ternary a b c _ _ _ => exact Or.inr ⟨a, b, c, rfl⟩
  | _ => simp [CExpr.binds] at h

theorem regroup_binary (n : Nat) : ∀ (op : BinOp) (a b : CExpr), a.tokens.length + b.tokens.length ≤ n → a.Grouped → b.Grouped →
    ∃ e : CExpr, e.Grouped ∧ e.binds + 4 = min (a.binds + 4) (min op.level (b.binds + 4)) ∧
      e.tokens = a.tokens ++ (op.syms ++ b.tokens) := by
  induction n with
  | zero =>
    intro op a b hn
    obtain ⟨t, ts, h, -⟩ := tokens_ne_gt a
    simp [h] at hn
  | succ n ih =>
    intro op a b hn ha hb
    have hop := binOp_level op
    have len : ∀ e : CExpr, 1 ≤ e.tokens.length := fun e => by obtain ⟨t, ts, h, -⟩ := tokens_ne_gt e; simp [h]
    have lens : ∀ o : BinOp, 1 ≤ o.syms.length := fun o => by
      cases o <;> simp [BinOp.syms]
      rename_i o; cases o <;> simp [ShiftOp.syms]
    by_cases hroot : op.level ≤ a.binds + 4 ∧ op.level < b.binds + 4
    · have := binds_build op a b
      exact ⟨op.build a b, (grouped_build ..).2 ⟨ha, hb, hroot.1, hroot.2⟩, by omega, tokens_build ..⟩
    by_cases ha0 : a.binds = 0
    · obtain ⟨o, x, y, rfl⟩ | ⟨x, y, z, rfl⟩ := loose_cases a (by omega)
      · have := binds_build o x y; have := binOp_level o; omega
      · obtain ⟨e, h1, h2, h3⟩ := ih op z b (by
          simp only [CExpr.tokens, List.length_append, List.length_cons] at hn
          omega) ha.2.2.1 hb
        exact ⟨.ternary x y e, ⟨ha.1, ha.2.1, h1, ha.2.2.2⟩, by simp only [CExpr.binds]; omega, by simp [CExpr.tokens, h3]⟩
    by_cases hab : a.binds + 4 < op.level ∧ a.binds < b.binds
    · obtain ⟨o, x, y, rfl⟩ | ⟨x, y, z, rfl⟩ := loose_cases a (by omega)
      · have hbb := binds_build o x y
        rw [grouped_build] at ha
        obtain ⟨e, h1, h2, h3⟩ := ih op y b (by
          simp only [tokens_build, List.length_append] at hn
          have := len x
          omega) ha.2.1 hb
        have hbe := binds_build o x e
        exact ⟨o.build x e, (grouped_build ..).2 ⟨ha.1, h1, ha.2.2.1, by omega⟩, by omega, by simp [tokens_build, h3]⟩
      · simp [CExpr.binds] at ha0
    · obtain ⟨o, x, y, rfl⟩ | ⟨x, y, z, rfl⟩ := loose_cases b (by omega)
      · have hbb := binds_build o x y
        rw [grouped_build] at hb
        obtain ⟨e, h1, h2, h3⟩ := ih op a x (by
          simp only [tokens_build, List.length_append] at hn
          have := len y
          omega) ha hb.1
        have hbe := binds_build o e y
        exact ⟨o.build e y, (grouped_build ..).2 ⟨h1, hb.2.1, by omega, hb.2.2.2⟩, by omega, by simp [tokens_build, h3]⟩
      · obtain ⟨e, h1, h2, h3⟩ := ih op a x (by
          simp only [CExpr.tokens, List.length_append, List.length_cons] at hn
          omega) ha hb.1
        have := hb.2.2.2
        exact ⟨.ternary e y z, ⟨h1, hb.2.1, hb.2.2.1, by omega⟩, by simp only [CExpr.binds]; omega, by simp [CExpr.tokens, h3]⟩

theorem regroup_ternary (a b c : CExpr) (ha : a.Grouped) (hb : b.Grouped) (hc : c.Grouped) :
    ∃ e : CExpr, e.Grouped ∧ e.tokens = a.tokens ++ .sym .questionmark :: (b.tokens ++ .sym .colon :: c.tokens) := by
  induction a using CExpr.induct with
  | ternary x y z _ _ ih =>
    obtain ⟨e, h1, h2⟩ := ih ha.2.2.1
    exact ⟨.ternary x y e, ⟨ha.1, ha.2.1, h1, ha.2.2.2⟩, by simp [CExpr.tokens, h2]⟩
  | binary op x y _ _ =>
    have := binds_build op x y
    have := binOp_level op
    exact ⟨.ternary (op.build x y) b c, ⟨ha, hb, hc, by omega⟩, rfl⟩
  | _ => exact ⟨.ternary _ b c, ⟨ha, hb, hc, by simp [CExpr.binds]⟩, rfl⟩

/-- Whatever is written, there is a grouped way to read it. -/
theorem regroup (e : CExpr) : ∃ e' : CExpr, e'.Grouped ∧ e'.tokens = e.tokens := by
  induction e using CExpr.induct with
  | parenthesized e ih => obtain ⟨e', h1, h2⟩ := ih; exact ⟨.parenthesized e', h1, by simp [CExpr.tokens, h2]⟩
  | functionCall e ih =>
    obtain ⟨e', h1, h2⟩ := ih
    obtain ⟨e'', h3, -, h4⟩ := regroup_postfix (F := .functionCall) (fun _ => rfl) (fun _ h h' => ⟨h, h'⟩) (fun _ => rfl) e' h1
    exact ⟨e'', h3, by simp [CExpr.tokens, h4, h2]⟩
  | array e i ihe ihi =>
    obtain ⟨e', h1, h2⟩ := ihe
    obtain ⟨i', hi1, hi2⟩ := ihi
    obtain ⟨e'', h3, -, h4⟩ := regroup_postfix (F := fun e => .array e i') (fun _ => rfl) (fun _ h h' => ⟨h, hi1, h'⟩) (fun _ => rfl) e' h1
    exact ⟨e'', h3, by simp [CExpr.tokens, h4, h2, hi2]⟩
  | dot e f ih =>
    obtain ⟨e', h1, h2⟩ := ih
    obtain ⟨e'', h3, -, h4⟩ := regroup_postfix (F := fun e => .dot e f) (fun _ => rfl) (fun _ h h' => ⟨h, h'⟩) (fun _ => rfl) e' h1
    exact ⟨e'', h3, by simp [CExpr.tokens, h4, h2]⟩
  | isSet a b iha ihb =>
    obtain ⟨a', h1, h2⟩ := iha
    obtain ⟨b', h3, h4⟩ := ihb
    exact ⟨.isSet a' b', ⟨h1, h3⟩, by simp [CExpr.tokens, h2, h4]⟩
  | lengthof e ih => obtain ⟨e', h1, h2⟩ := ih; exact ⟨.lengthof e', h1, by simp [CExpr.tokens, h2]⟩
  | valueof e ih => obtain ⟨e', h1, h2⟩ := ih; exact ⟨.valueof e', h1, by simp [CExpr.tokens, h2]⟩
  | numbits e ih => obtain ⟨e', h1, h2⟩ := ih; exact ⟨.numbits e', h1, by simp [CExpr.tokens, h2]⟩
  | unary op e ih =>
    obtain ⟨e', h1, h2⟩ := ih
    obtain ⟨e'', h3, -, h4⟩ := regroup_unary op e' h1
    exact ⟨e'', h3, by simp [CExpr.tokens, h4, h2]⟩
  | binary op a b iha ihb =>
    obtain ⟨a', h1, h2⟩ := iha
    obtain ⟨b', h3, h4⟩ := ihb
    obtain ⟨e, h5, -, h6⟩ := regroup_binary _ op a' b' (le_refl _) h1 h3
    exact ⟨e, h5, by simp [tokens_build, h6, h2, h4]⟩
  | ternary a b c iha ihb ihc =>
    obtain ⟨a', h1, h2⟩ := iha
    obtain ⟨b', h3, h4⟩ := ihb
    obtain ⟨c', h5, h6⟩ := ihc
    obtain ⟨e, h7, h8⟩ := regroup_ternary a' b' c' h1 h3 h5
    exact ⟨e, h7, by simp [CExpr.tokens, h8, h2, h4, h6]⟩
  | literal k t => exact ⟨.literal k t, trivial, rfl⟩
  | index => exact ⟨.index, trivial, rfl⟩
  | identifier n => exact ⟨.identifier n, trivial, rfl⟩

/-! ## The property -/

/-- C81: what is written for an expression, grouped by the strength of its operators, is read as that expression, whatever comes
behind it as long as that does not go on with it. -/
theorem C81_reads (e : CExpr) (hg : e.Grouped) (rest : List Token) (hr : Ends rest) :
    parseExpression (e.tokens ++ rest) = some (e, rest) :=
  readBy_inner (readBy e) hg hr (by simp only [List.length_append]; omega) (by omega) (by omega)

/-- C81: what is read is what is written, grouped by the strength of the operators, up to a place where the tokens do not go on
with the expression. -/
theorem C81_read {ts rest : List Token} {e : CExpr} (h : parseExpression ts = some (e, rest)) :
    ts = e.tokens ++ rest ∧ e.Grouped ∧ Ends rest := by
  obtain ⟨h1, h2, -, h4⟩ := (soundAt _).1 0 ts e rest (by omega) h
  refine ⟨h1, h2, ends_of_nextCont ?_⟩
  cases hc : nextCont rest with
  | none => rfl
  | some x => exact absurd (h4 x.1 x.2 hc) (by omega)

/-- C81: every sequence of tokens that the grammar derives from `expression`, by whatever tree, is read completely; the tree is
the one grouped by the strength of the operators. -/
theorem C81_accepts (e : CExpr) (rest : List Token) (hr : Ends rest) :
    ∃ e', parseExpression (e.tokens ++ rest) = some (e', rest) ∧ e'.Grouped ∧ e'.tokens = e.tokens := by
  obtain ⟨e', h1, h2⟩ := regroup e
  exact ⟨e', by rw [← h2]; exact C81_reads e' h1 rest hr, h1, h2⟩

/-- C81: there is no second grouped way to read the same tokens. -/
theorem C81_unique (e e' : CExpr) (hg : e.Grouped) (hg' : e'.Grouped) (h : e.tokens = e'.tokens) : e = e' := by
  have h1 := C81_reads e hg [] trivial
  rw [h, C81_reads e' hg' [] trivial] at h1
  simpa using h1.symm

/-! ## A case -/

/-- `a`, `b`, … -/
def exName (c : Char) (h : isIdText [c] = true := by decide) : CExpr := .identifier ⟨[c], h⟩

/-- `a - b - c * -d.e >> 1 > f ? a : b ? c : d` is read as one expects. -/
def exGrouped : CExpr :=
  .ternary
    (.relational .gt
      (.shift .right
        (.additive .minus (.additive .minus (exName 'a') (exName 'b'))
          (.multiplicative .multiply (exName 'c') (.unary .minus (.dot (exName 'd') ⟨['e'], by decide⟩))))
        (.literal .decimal ['1']))
      (exName 'f'))
    (exName 'a')
    (.ternary (exName 'b') (exName 'c') (exName 'd'))

example : exGrouped.Grouped := by simp [exGrouped, exName, CExpr.Grouped, LeftToRight, CExpr.binds]

example : parseExpression (exGrouped.tokens ++ [.sym .semicolon]) = some (exGrouped, [.sym .semicolon]) := by rfl

/-- Without grouping, the same tokens have other trees. -/
example : (CExpr.additive .minus (exName 'a') (.additive .minus (exName 'b') (exName 'c'))).tokens =
    (CExpr.additive .minus (.additive .minus (exName 'a') (exName 'b')) (exName 'c')).tokens := rfl

end Verif
