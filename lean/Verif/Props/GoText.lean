import Verif.GoText

/-!
# C55: Go reads a generated expression as it was meant
-/

namespace Verif

/-! ## Specification -/

/-- Unary operators of Go: `+ - ! ^ * &`. -/
inductive GUn where
  | plus | minus | bang | not | deref | addr
deriving DecidableEq

/-- Syntax trees of Go expressions. `cond` is not in Go: it is what `?:` means. -/
inductive GEx where
  | name (t : Text)
  | num (n : Nat)
  | paren (g : GEx)
  | call0 (f : GEx)
  | call (f a : GEx)
  | index (a b : GEx)
  | sel (g : GEx) (t : Text)
  | un (o : GUn) (g : GEx)
  | bin (o : GOp) (a b : GEx)
  | cond (c a b : GEx)
deriving DecidableEq

/-- https://go.dev/ref/spec#Operator_precedence -/
def goPrec : GOp → Nat
  | .mul | .div | .mod | .shl | .shr | .band => 5
  | .add | .sub | .bor | .bxor => 4
  | .eq | .ne | .lt | .le | .gt | .ge => 3
  | .land => 2
  | .lor => 1

/-- The token of a unary operator. -/
def GUn.tok : GUn → GTok
  | .plus => .op .add
  | .minus => .op .sub
  | .bang => .bang
  | .not => .op .bxor
  | .deref => .op .mul
  | .addr => .op .band

/-- The grammar of Go expressions (https://go.dev/ref/spec#Expressions), as far as generated expressions use it, stratified by
precedence: 7 are primary expressions, 6 unary expressions, 5 to 1 binary expressions, which associate to the left. -/
inductive Derives : Nat → List GTok → GEx → Prop
  | name (t) : Derives 7 [.name t] (.name t)
  | num (n) : Derives 7 [.num n] (.num n)
  | paren (ts g) : Derives 1 ts g → Derives 7 (.lparen :: (ts ++ [.rparen])) (.paren g)
  | call0 (ts f) : Derives 7 ts f → Derives 7 (ts ++ [.lparen, .rparen]) (.call0 f)
  | call (ts f us a) : Derives 7 ts f → Derives 1 us a → Derives 7 (ts ++ .lparen :: (us ++ [.rparen])) (.call f a)
  | index (ts a us b) : Derives 7 ts a → Derives 1 us b → Derives 7 (ts ++ .lbrack :: (us ++ [.rbrack])) (.index a b)
  | sel (ts g t) : Derives 7 ts g → Derives 7 (ts ++ [.dot, .name t]) (.sel g t)
  | un (o ts g) : Derives 6 ts g → Derives 6 (o.tok :: ts) (.un o g)
  | bin (p o ts a us b) : goPrec o = p → Derives p ts a → Derives (p + 1) us b → Derives p (ts ++ .op o :: us) (.bin o a b)
  | up (p ts g) : 1 ≤ p → Derives (p + 1) ts g → Derives p ts g

/-- A tree without its parentheses. -/
def GEx.strip : GEx → GEx
  | .name t => .name t
  | .num n => .num n
  | .paren g => g.strip
  | .call0 f => .call0 f.strip
  | .call f a => .call f.strip a.strip
  | .index a b => .index a.strip b.strip
  | .sel g t => .sel g.strip t
  | .un o g => .un o g.strip
  | .bin o a b => .bin o a.strip b.strip
  | .cond c a b => .cond c.strip a.strip b.strip

def castGo (c : Option Text) (g : GEx) : GEx :=
  match c with
  | none => g
  | some t => .call (.name t) g

/-- What an expression of the schema means in Go. -/
def meant : PEx → GEx
  | .num z => if z < 0 then .un .minus (.num z.natAbs) else .num z.natAbs
  | .word t => .name t
  | .member t => .sel (.name vName) t
  | .paren e => meant e
  | .call e => .call0 (meant e)
  | .index a b => .index (meant a) (meant b)
  | .dot e t => .sel (meant e) t
  | .isset a b => .bin .ne (.bin .band (meant a) (meant b)) (.num 0)
  | .lengthof e => .call (.name int64Name) (.call (.name lenName) (meant e))
  | .valueof e => meant e
  | .numbits e => .call (.sel (.name ztypeName) numBitsName) (.call (.name uint64Name) (meant e))
  | .bang e => .un .bang (meant e)
  | .tilde e => .un .not (meant e)
  | .sign m e => .un (if m then .minus else .plus) (meant e)
  | .bin o ca cb a b => .bin o (castGo ca (meant a)) (castGo cb (meant b))
  | .tern int c a b =>
    let cast := if int then some "int".toList else none
    .cond (meant c) (castGo cast (meant a)) (castGo cast (meant b))

/-- How tightly the text of an expression holds together in Go. -/
def PEx.level : PEx → Nat
  | .num z => if z < 0 then 6 else 7
  | .word _ | .member _ | .paren _ | .call _ | .index _ _ | .dot _ _ | .lengthof _ | .numbits _ | .tilde _ | .tern _ _ _ _ => 7
  | .isset _ _ => 3
  | .valueof e => e.level
  | .bang _ | .sign _ _ => 6
  | .bin o _ _ _ _ => goPrec o

/-- Every operand holds together more tightly than its operator in Go, or is in parentheses (those of a cast included); and
there is no `~`, unary plus or minus, or `?:` (on something without a known value). -/
def PEx.Safe : PEx → Prop
  | .num _ | .word _ | .member _ => True
  | .paren e | .lengthof e | .valueof e | .numbits e => e.Safe
  | .call e | .dot e _ => e.Safe ∧ e.level = 7
  | .index a b => a.Safe ∧ b.Safe ∧ a.level = 7
  | .isset a b => a.Safe ∧ b.Safe ∧ 5 ≤ a.level ∧ 6 ≤ b.level
  | .bang e => e.Safe ∧ 6 ≤ e.level
  | .bin o ca cb a b => a.Safe ∧ b.Safe ∧ (ca = none → goPrec o ≤ a.level) ∧ (cb = none → goPrec o + 1 ≤ b.level)
  | .tilde _ | .sign _ _ | .tern _ _ _ _ => False

/-! ## The grammar is not ambiguous -/

/-- A parser for Go, as a relation: what is read with the mode, the tokens, the tree read, the tokens left. -/
inductive PMode where
  | unary
  | post (g : GEx)
  | expr (p : Nat)
  | loop (p : Nat) (g : GEx)

/-- The next token does not continue a primary expression. -/
def endsPost : List GTok → Prop
  | .lparen :: _ | .lbrack :: _ | .dot :: _ => False
  | _ => True

/-- The next token, if it is an operator, has at most this precedence. -/
def headPrec (p : Nat) : List GTok → Prop
  | .op o :: _ => goPrec o ≤ p
  | _ => True

inductive GParse : PMode → List GTok → GEx → List GTok → Prop
  | un (o ts g r) : GParse .unary ts g r → GParse .unary (o.tok :: ts) (.un o g) r
  | name (t ts g r) : GParse (.post (.name t)) ts g r → GParse .unary (.name t :: ts) g r
  | num (n ts g r) : GParse (.post (.num n)) ts g r → GParse .unary (.num n :: ts) g r
  | paren (ts h r' g r) : GParse (.expr 1) ts h (.rparen :: r') → GParse (.post (.paren h)) r' g r →
      GParse .unary (.lparen :: ts) g r
  | call0 (f ts g r) : GParse (.post (.call0 f)) ts g r → GParse (.post f) (.lparen :: .rparen :: ts) g r
  | call (f ts a r' g r) : GParse (.expr 1) ts a (.rparen :: r') → GParse (.post (.call f a)) r' g r →
      GParse (.post f) (.lparen :: ts) g r
  | index (f ts a r' g r) : GParse (.expr 1) ts a (.rbrack :: r') → GParse (.post (.index f a)) r' g r →
      GParse (.post f) (.lbrack :: ts) g r
  | sel (f t ts g r) : GParse (.post (.sel f t)) ts g r → GParse (.post f) (.dot :: .name t :: ts) g r
  | stop (f ts) : endsPost ts → GParse (.post f) ts f ts
  | expr (p ts g0 r0 g r) : GParse .unary ts g0 r0 → GParse (.loop p g0) r0 g r → GParse (.expr p) ts g r
  | op (p g0 o ts b r0 g r) : p ≤ goPrec o → GParse (.expr (goPrec o + 1)) ts b r0 → GParse (.loop p (.bin o g0 b)) r0 g r →
      GParse (.loop p g0) (.op o :: ts) g r
  | done (p g0 ts) : (∀ o r, ts = .op o :: r → goPrec o < p) → GParse (.loop p g0) ts g0 ts

theorem GUn.tok_inj {o o' : GUn} (h : o.tok = o'.tok) : o = o' := by
  revert h; cases o <;> cases o' <;> simp [GUn.tok]

theorem GUn.tok_cases (o : GUn) : (∃ x, o.tok = .op x) ∨ o.tok = .bang := by cases o <;> simp [GUn.tok]

theorem not_unary_rparen {ts g r} (h : GParse .unary (.rparen :: ts) g r) : False := by
  generalize hm : PMode.unary = m at h
  generalize ht : GTok.rparen :: ts = l at h
  cases h <;> simp_all
  rename_i o _ _ _
  rcases o.tok_cases with ⟨x, hx⟩ | hx <;> rw [hx] at ht <;> simp at ht

theorem not_expr_rparen {p ts g r} (h : GParse (.expr p) (.rparen :: ts) g r) : False := by
  generalize ht : GTok.rparen :: ts = l at h
  cases h
  subst ht
  rename_i h
  exact not_unary_rparen h

theorem GParse.det {m : PMode} {ts : List GTok} {g : GEx} {r : List GTok} (h : GParse m ts g r) :
    ∀ g' r', GParse m ts g' r' → g = g' ∧ r = r' := by
  induction h with
  | un o ts g r h ih =>
    intro g' r' h'
    generalize hl : o.tok :: ts = l at h'
    cases h' with
    | un o' ts' g1 r1 h1 =>
      simp only [List.cons.injEq] at hl
      obtain ⟨ho, rfl⟩ := hl
      obtain ⟨rfl, rfl⟩ := ih _ _ h1
      rw [GUn.tok_inj ho]; exact ⟨rfl, rfl⟩
    | name => rcases o.tok_cases with ⟨x, hx⟩ | hx <;> rw [hx] at hl <;> simp at hl
    | num => rcases o.tok_cases with ⟨x, hx⟩ | hx <;> rw [hx] at hl <;> simp at hl
    | paren => rcases o.tok_cases with ⟨x, hx⟩ | hx <;> rw [hx] at hl <;> simp at hl
  | name t ts g r h ih =>
    intro g' r' h'
    generalize hl : GTok.name t :: ts = l at h'
    cases h' with
    | un o' => rcases o'.tok_cases with ⟨x, hx⟩ | hx <;> rw [hx] at hl <;> simp at hl
    | name t' ts' g1 r1 h1 => simp only [List.cons.injEq, GTok.name.injEq] at hl; obtain ⟨rfl, rfl⟩ := hl; exact ih _ _ h1
    | num => simp at hl
    | paren => simp at hl
  | num t ts g r h ih =>
    intro g' r' h'
    generalize hl : GTok.num t :: ts = l at h'
    cases h' with
    | un o' => rcases o'.tok_cases with ⟨x, hx⟩ | hx <;> rw [hx] at hl <;> simp at hl
    | num t' ts' g1 r1 h1 => simp only [List.cons.injEq, GTok.num.injEq] at hl; obtain ⟨rfl, rfl⟩ := hl; exact ih _ _ h1
    | name => simp at hl
    | paren => simp at hl
  | paren ts h r1 g r ha hb iha ihb =>
    intro g' r' h'
    generalize hl : GTok.lparen :: ts = l at h'
    cases h' with
    | un o' => rcases o'.tok_cases with ⟨x, hx⟩ | hx <;> rw [hx] at hl <;> simp at hl
    | name => simp at hl
    | num => simp at hl
    | paren ts2 h2 r2 _ _ ha2 hb2 =>
      simp only [List.cons.injEq, true_and] at hl
      subst hl
      obtain ⟨rfl, hr⟩ := iha _ _ ha2
      simp only [List.cons.injEq, true_and] at hr
      subst hr
      exact ihb _ _ hb2
  | call0 f ts g r h ih =>
    intro g' r' h'
    cases h' with
    | call0 _ _ _ _ h1 => exact ih _ _ h1
    | call _ _ _ _ _ _ ha => exact (not_expr_rparen ha).elim
    | stop _ _ hs => exact hs.elim
  | call f ts a r1 g r ha hb iha ihb =>
    intro g' r' h'
    cases h' with
    | call0 _ _ _ _ h1 => exact (not_expr_rparen ha).elim
    | call _ _ _ _ _ _ ha2 hb2 =>
      obtain ⟨rfl, hr⟩ := iha _ _ ha2
      simp only [List.cons.injEq, true_and] at hr
      subst hr
      exact ihb _ _ hb2
    | stop _ _ hs => exact hs.elim
  | index f ts a r1 g r ha hb iha ihb =>
    intro g' r' h'
    cases h' with
    | index _ _ _ _ _ _ ha2 hb2 =>
      obtain ⟨rfl, hr⟩ := iha _ _ ha2
      simp only [List.cons.injEq, true_and] at hr
      subst hr
      exact ihb _ _ hb2
    | stop _ _ hs => exact hs.elim
  | sel f t ts g r h ih =>
    intro g' r' h'
    cases h' with
    | sel _ _ _ _ _ h1 => exact ih _ _ h1
    | stop _ _ hs => exact hs.elim
  | stop f ts hs =>
    intro g' r' h'
    cases h' with
    | stop => exact ⟨rfl, rfl⟩
    | call0 => exact hs.elim
    | call => exact hs.elim
    | index => exact hs.elim
    | sel => exact hs.elim
  | expr p ts g0 r0 g r ha hb iha ihb =>
    intro g' r' h'
    cases h' with
    | expr _ _ g1 r1 _ _ ha2 hb2 =>
      obtain ⟨rfl, rfl⟩ := iha _ _ ha2
      exact ihb _ _ hb2
  | op p g0 o ts b r0 g r hp ha hb iha ihb =>
    intro g' r' h'
    cases h' with
    | op _ _ _ _ b1 r1 _ _ _ ha2 hb2 =>
      obtain ⟨rfl, rfl⟩ := iha _ _ ha2
      exact ihb _ _ hb2
    | done _ _ _ hd => have := hd _ _ rfl; omega
  | done p g0 ts hd =>
    intro g' r' h'
    cases h' with
    | op _ _ o _ _ _ _ _ hp => have := hd _ _ rfl; omega
    | done => exact ⟨rfl, rfl⟩

theorem headPrec_done {p : Nat} {ts : List GTok} (h : headPrec p ts) : ∀ o r, ts = .op o :: r → goPrec o < p + 1 := by
  rintro o r rfl
  have : goPrec o ≤ p := h
  omega

theorem goPrec_bounds (o : GOp) : 1 ≤ goPrec o ∧ goPrec o ≤ 5 := by cases o <;> decide

/-- The parser reads what the grammar derives. -/
theorem Derives.parse {q : Nat} {ts : List GTok} {g : GEx} (h : Derives q ts g) :
    1 ≤ q ∧ q ≤ 7 ∧
    (q = 7 → ∀ rest g' r, GParse (.post g) rest g' r → GParse .unary (ts ++ rest) g' r) ∧
    (6 ≤ q → ∀ rest, endsPost rest → GParse .unary (ts ++ rest) g rest) ∧
    (∀ p rest g' r, p ≤ q → endsPost rest → headPrec q rest → GParse (.loop p g) rest g' r →
      GParse (.expr p) (ts ++ rest) g' r) := by
  -- an expression read as a primary one is read in all ways
  have prim : ∀ (ts : List GTok) (g : GEx), (∀ rest g' r, GParse (.post g) rest g' r → GParse .unary (ts ++ rest) g' r) →
      1 ≤ 7 ∧ 7 ≤ 7 ∧
      (7 = 7 → ∀ rest g' r, GParse (.post g) rest g' r → GParse .unary (ts ++ rest) g' r) ∧
      (6 ≤ 7 → ∀ rest, endsPost rest → GParse .unary (ts ++ rest) g rest) ∧
      (∀ p rest g' r, p ≤ 7 → endsPost rest → headPrec 7 rest → GParse (.loop p g) rest g' r →
        GParse (.expr p) (ts ++ rest) g' r) := by
    intro ts g h
    exact ⟨by decide, by decide, fun _ => h, fun _ rest he => h _ _ _ (.stop _ _ he),
      fun p rest g' r _ he _ hl => .expr _ _ _ _ _ _ (h _ _ _ (.stop _ _ he)) hl⟩
  induction h with
  | name t => exact prim _ _ fun rest g' r h => .name _ _ _ _ h
  | num t => exact prim _ _ fun rest g' r h => .num _ _ _ _ h
  | paren ts g _ ih =>
    obtain ⟨_, _, _, _, ih⟩ := ih
    apply prim
    intro rest g' r h
    have := ih 1 (.rparen :: rest) g (.rparen :: rest) (by omega) trivial trivial (.done _ _ _ (by simp))
    simp only [List.cons_append, List.append_assoc, List.nil_append]
    exact .paren _ _ _ _ _ this h
  | call0 ts f _ ih =>
    obtain ⟨_, _, ih, _, _⟩ := ih
    apply prim
    intro rest g' r h
    have := ih rfl (.lparen :: .rparen :: rest) g' r (.call0 _ _ _ _ h)
    simpa using this
  | call ts f us a _ _ ihf iha =>
    obtain ⟨_, _, ihf, _, _⟩ := ihf
    obtain ⟨_, _, _, _, iha⟩ := iha
    apply prim
    intro rest g' r h
    have h1 := iha 1 (.rparen :: rest) a (.rparen :: rest) (by omega) trivial trivial (.done _ _ _ (by simp))
    have := ihf rfl (.lparen :: (us ++ .rparen :: rest)) g' r (.call _ _ _ _ _ _ h1 h)
    simpa using this
  | index ts a us b _ _ ihf iha =>
    obtain ⟨_, _, ihf, _, _⟩ := ihf
    obtain ⟨_, _, _, _, iha⟩ := iha
    apply prim
    intro rest g' r h
    have h1 := iha 1 (.rbrack :: rest) b (.rbrack :: rest) (by omega) trivial trivial (.done _ _ _ (by simp))
    have := ihf rfl (.lbrack :: (us ++ .rbrack :: rest)) g' r (.index _ _ _ _ _ _ h1 h)
    simpa using this
  | sel ts g t _ ih =>
    obtain ⟨_, _, ih, _, _⟩ := ih
    apply prim
    intro rest g' r h
    have := ih rfl (.dot :: .name t :: rest) g' r (.sel _ _ _ _ _ h)
    simpa using this
  | un o ts g _ ih =>
    obtain ⟨_, _, _, ih, _⟩ := ih
    have hu : ∀ rest, endsPost rest → GParse .unary (o.tok :: ts ++ rest) (.un o g) rest :=
      fun rest he => .un _ _ _ _ (ih (by omega) rest he)
    exact ⟨by omega, by omega, by omega, fun _ => hu, fun p rest g' r _ he _ hl => .expr _ _ _ _ _ _ (hu rest he) hl⟩
  | bin p o ts a us b ho _ _ iha ihb =>
    obtain ⟨_, _, _, _, iha⟩ := iha
    obtain ⟨_, _, _, _, ihb⟩ := ihb
    have hb := goPrec_bounds o
    refine ⟨by omega, by omega, by omega, by omega, ?_⟩
    intro p' rest g' r hp he hh hl
    have h2 := ihb (p + 1) rest b rest (by omega) he ?_ (.done _ _ _ (headPrec_done hh))
    · have h1 := iha p' (.op o :: (us ++ rest)) g' r hp trivial (by show goPrec o ≤ p; omega)
        (.op _ _ _ _ _ _ _ _ (by omega) (by rw [ho]; exact h2) hl)
      simpa using h1
    · match rest, hh with
      | .op o' :: _, hh => have : goPrec o' ≤ p := hh; show goPrec o' ≤ p + 1; omega
      | [], _ => trivial
      | .name _ :: _, _ => trivial
      | .num _ :: _, _ => trivial
      | .bang :: _, _ => trivial
      | .lparen :: _, _ => trivial
      | .rparen :: _, _ => trivial
      | .lbrack :: _, _ => trivial
      | .rbrack :: _, _ => trivial
      | .dot :: _, _ => trivial
      | .other _ :: _, _ => trivial
  | up p ts g hp _ ih =>
    obtain ⟨_, _, _, ih6, ih⟩ := ih
    refine ⟨hp, by omega, by omega, fun h6 => ih6 (by omega), ?_⟩
    intro p' rest g' r hp' he hh hl
    refine ih p' rest g' r (by omega) he ?_ hl
    match rest, hh with
    | .op o' :: _, hh => have : goPrec o' ≤ p := hh; show goPrec o' ≤ p + 1; omega
    | [], _ => trivial
    | .name _ :: _, _ => trivial
    | .num _ :: _, _ => trivial
    | .bang :: _, _ => trivial
    | .lparen :: _, _ => trivial
    | .rparen :: _, _ => trivial
    | .lbrack :: _, _ => trivial
    | .rbrack :: _, _ => trivial
    | .dot :: _, _ => trivial
    | .other _ :: _, _ => trivial

/-- A text has at most one tree. -/
theorem Derives.unique {p p' : Nat} {ts : List GTok} {g g' : GEx} (h : Derives p ts g) (h' : Derives p' ts g') : g = g' := by
  obtain ⟨hp, _, _, _, h⟩ := h.parse
  obtain ⟨hp', _, _, _, h'⟩ := h'.parse
  have a := h 1 [] g [] hp trivial trivial (.done _ _ _ (by simp))
  have b := h' 1 [] g' [] hp' trivial trivial (.done _ _ _ (by simp))
  exact (a.det _ _ b).1

/-! ## The tree that is printed -/

/-- The tokens of a tree. (`cond` has none: it is never derived.) -/
def GEx.toks : GEx → List GTok
  | .name t => [.name t]
  | .num n => [.num n]
  | .paren g => .lparen :: (g.toks ++ [.rparen])
  | .call0 f => f.toks ++ [.lparen, .rparen]
  | .call f a => f.toks ++ .lparen :: (a.toks ++ [.rparen])
  | .index a b => a.toks ++ .lbrack :: (b.toks ++ [.rbrack])
  | .sel g t => g.toks ++ [.dot, .name t]
  | .un o g => o.tok :: g.toks
  | .bin o a b => a.toks ++ .op o :: b.toks
  | .cond _ _ _ => []

/-- A tree without `cond`. -/
def GEx.Real : GEx → Prop
  | .name _ | .num _ => True
  | .paren g | .call0 g | .sel g _ | .un _ g => g.Real
  | .call a b | .index a b | .bin _ a b => a.Real ∧ b.Real
  | .cond _ _ _ => False

theorem Derives.toks {p : Nat} {ts : List GTok} {g : GEx} (h : Derives p ts g) : ts = g.toks ∧ g.Real := by
  induction h with
  | name | num => exact ⟨rfl, trivial⟩
  | paren ts g _ ih => exact ⟨by rw [GEx.toks, ← ih.1], ih.2⟩
  | call0 ts f _ ih => exact ⟨by rw [GEx.toks, ← ih.1], ih.2⟩
  | call ts f us a _ _ ihf iha => exact ⟨by rw [GEx.toks, ← ihf.1, ← iha.1], ihf.2, iha.2⟩
  | index ts f us a _ _ ihf iha => exact ⟨by rw [GEx.toks, ← ihf.1, ← iha.1], ihf.2, iha.2⟩
  | sel ts g t _ ih => exact ⟨by rw [GEx.toks, ← ih.1], ih.2⟩
  | un o ts g _ ih => exact ⟨by rw [GEx.toks, ← ih.1], ih.2⟩
  | bin p o ts a us b _ _ _ iha ihb => exact ⟨by rw [GEx.toks, ← iha.1, ← ihb.1], iha.2, ihb.2⟩
  | up _ _ _ _ _ ih => exact ih

/-- The tree of the printed text, with its parentheses. -/
def tree : PEx → GEx
  | .num z => if z < 0 then .un .minus (.num z.natAbs) else .num z.natAbs
  | .word t => .name t
  | .member t => .sel (.name vName) t
  | .paren e => .paren (tree e)
  | .call e => .call0 (tree e)
  | .index a b => .index (tree a) (tree b)
  | .dot e t => .sel (tree e) t
  | .isset a b => .bin .ne (.bin .band (tree a) (tree b)) (.num 0)
  | .lengthof e => .call (.paren (.name int64Name)) (.call (.name lenName) (tree e))
  | .valueof e => tree e
  | .numbits e => .call (.sel (.name ztypeName) numBitsName) (.call (.name uint64Name) (tree e))
  | .bang e => .un .bang (tree e)
  | .tilde _ => .name unsupportedName
  | .sign _ e => tree e
  | .bin o ca cb a b => .bin o (castGo ca (tree a)) (castGo cb (tree b))
  | .tern _ _ _ b => tree b

/-- Without `~`, unary plus and minus and `?:` (on something without a known value). -/
def PEx.Plain : PEx → Prop
  | .num _ | .word _ | .member _ => True
  | .paren e | .lengthof e | .valueof e | .numbits e | .call e | .dot e _ | .bang e => e.Plain
  | .index a b | .isset a b | .bin _ _ _ a b => a.Plain ∧ b.Plain
  | .tilde _ | .sign _ _ | .tern _ _ _ _ => False

theorem PEx.Safe.plain {e : PEx} (h : e.Safe) : e.Plain := by
  induction e with
  | num | word | member => trivial
  | paren e ih => exact ih h
  | lengthof e ih => exact ih h
  | valueof e ih => exact ih h
  | numbits e ih => exact ih h
  | call e ih => exact ih h.1
  | dot e t ih => exact ih h.1
  | bang e ih => exact ih h.1
  | index a b iha ihb => exact ⟨iha h.1, ihb h.2.1⟩
  | isset a b iha ihb => exact ⟨iha h.1, ihb h.2.1⟩
  | bin o ca cb a b iha ihb => exact ⟨iha h.1, ihb h.2.1⟩
  | tilde | sign | tern => exact h.elim

theorem castToks_tree (c : Option Text) (g : GEx) : castToks c g.toks = (castGo c g).toks := by
  cases c <;> rfl

theorem castGo_strip (c : Option Text) (g : GEx) : (castGo c g).strip = castGo c g.strip := by
  cases c <;> rfl

theorem printGo_tree (e : PEx) (h : e.Plain) : printGo e = some (tree e).toks := by
  induction e with
  | num z => simp only [printGo, numToks, tree]; split <;> rfl
  | word | member => rfl
  | paren e ih | lengthof e ih | valueof e ih | numbits e ih | call e ih | dot e t ih | bang e ih =>
    simp [printGo, tree, ih h, GEx.toks, GUn.tok]
  | index a b iha ihb | isset a b iha ihb => simp [printGo, tree, iha h.1, ihb h.2, GEx.toks]
  | bin o ca cb a b iha ihb => simp [printGo, tree, iha h.1, ihb h.2, GEx.toks, castToks_tree]
  | tilde | sign | tern => exact h.elim

theorem tree_strip (e : PEx) (h : e.Plain) : (tree e).strip = meant e := by
  induction e with
  | num z => simp only [meant, tree]; split <;> rfl
  | word | member => rfl
  | paren e ih | lengthof e ih | valueof e ih | numbits e ih | call e ih | dot e t ih | bang e ih =>
    simp [tree, meant, GEx.strip, ih h]
  | index a b iha ihb | isset a b iha ihb => simp [tree, meant, iha h.1, ihb h.2, GEx.strip]
  | bin o ca cb a b iha ihb => simp [tree, meant, iha h.1, ihb h.2, GEx.strip, castGo_strip]
  | tilde | sign | tern => exact h.elim

theorem Derives.down {p q : Nat} {ts : List GTok} {g : GEx} (h : Derives q ts g) (hp : 1 ≤ p) (hpq : p ≤ q) : Derives p ts g := by
  obtain ⟨k, rfl⟩ := Nat.exists_eq_add_of_le hpq
  clear hpq
  induction k with
  | zero => exact h
  | succ k ih => exact ih (.up _ _ _ (by omega) h)

theorem level_bounds (e : PEx) : 1 ≤ e.level ∧ e.level ≤ 7 := by
  induction e with
  | num z => simp only [PEx.level]; split <;> omega
  | valueof e ih => exact ih
  | bin o => have := goPrec_bounds o; simp only [PEx.level]; omega
  | _ => simp [PEx.level]

theorem castDerives {p : Nat} (c : Option Text) (e : PEx) (h : Derives e.level (tree e).toks (tree e)) (hp : 1 ≤ p ∧ p ≤ 7)
    (hc : c = none → p ≤ e.level) : Derives p (castGo c (tree e)).toks (castGo c (tree e)) := by
  cases c with
  | none => exact h.down hp.1 (hc rfl)
  | some t => exact (Derives.call _ _ _ _ (.name t) (h.down (by omega) (level_bounds e).1)).down hp.1 hp.2

theorem safe_derives (e : PEx) (h : e.Safe) : Derives e.level (tree e).toks (tree e) := by
  induction e with
  | num z =>
    simp only [PEx.level, tree]
    split
    · exact .un .minus _ _ (.up _ _ _ (by decide) (.num _))
    · exact .num _
  | word t => exact .name t
  | member t => exact .sel _ _ t (.name _)
  | paren e ih => exact .paren _ _ ((ih h).down (by decide) (level_bounds e).1)
  | call e ih => have := ih h.1; rw [h.2] at this; exact .call0 _ _ this
  | dot e t ih => have := ih h.1; rw [h.2] at this; exact .sel _ _ t this
  | index a b iha ihb =>
    have ha := iha h.1
    rw [h.2.2] at ha
    exact .index _ _ _ _ ha ((ihb h.2.1).down (by decide) (level_bounds b).1)
  | isset a b iha ihb =>
    refine .bin 3 .ne _ _ _ _ rfl ?_ ((Derives.num 0).down (by decide) (by decide))
    exact Derives.down (Derives.bin 5 .band _ _ _ _ rfl ((iha h.1).down (by decide) h.2.2.1) ((ihb h.2.1).down (by decide) h.2.2.2))
      (by decide) (by decide)
  | lengthof e ih =>
    exact .call _ _ _ _ (.paren _ _ ((Derives.name _).down (by decide) (by decide)))
      ((Derives.call _ _ _ _ (.name _) ((ih h).down (by decide) (level_bounds e).1)).down (by decide) (by decide))
  | valueof e ih => exact ih h
  | numbits e ih =>
    exact .call _ _ _ _ (.sel _ _ _ (.name _))
      ((Derives.call _ _ _ _ (.name _) ((ih h).down (by decide) (level_bounds e).1)).down (by decide) (by decide))
  | bang e ih => exact .un .bang _ _ ((ih h.1).down (by decide) h.2)
  | bin o ca cb a b iha ihb =>
    have := goPrec_bounds o
    exact .bin (goPrec o) o _ _ _ _ rfl (castDerives ca a (iha h.1) (by omega) h.2.2.1)
      (castDerives cb b (ihb h.2.1) (by omega) h.2.2.2)
  | tilde | sign | tern => exact h.elim

/-- **C55 (part).** The text of an expression whose operands hold together more tightly in Go than their operators, or are
in parentheses, is an expression of Go, and every way to read it is the one that was meant. -/
theorem C55_read_partial (e : PEx) (h : e.Safe) : ∃ ts, printGo e = some ts ∧ (∃ g, Derives 1 ts g) ∧
    ∀ p g, Derives p ts g → g.strip = meant e := by
  refine ⟨_, printGo_tree e h.plain, ⟨_, (safe_derives e h).down (by decide) (level_bounds e).1⟩, ?_⟩
  intro p g hg
  rw [hg.unique (safe_derives e h), tree_strip e h.plain]

/-! ## The condition is exact -/

/-- Parentheses opened and not closed. -/
def depth : List GTok → Int
  | [] => 0
  | .lparen :: ts => 1 + depth ts
  | .rparen :: ts => -1 + depth ts
  | _ :: ts => depth ts

theorem depth_append (a b : List GTok) : depth (a ++ b) = depth a + depth b := by
  induction a with
  | nil => simp [depth]
  | cons t ts ih => cases t <;> simp [depth, ih] <;> omega

theorem depth_tok (o : GUn) (ts : List GTok) : depth (o.tok :: ts) = depth ts := by cases o <;> rfl

/-- Parentheses are closed after they are opened, and no more and no less. -/
def Balanced (ts : List GTok) : Prop := depth ts = 0 ∧ ∀ a b, ts = a ++ b → 0 ≤ depth a

theorem Balanced.append {a b : List GTok} (ha : Balanced a) (hb : Balanced b) : Balanced (a ++ b) := by
  refine ⟨by rw [depth_append, ha.1, hb.1]; rfl, ?_⟩
  intro x y h
  rcases List.append_eq_append_iff.1 h with ⟨c, rfl, hc⟩ | ⟨c, hc, rfl⟩
  · rw [depth_append, ha.1]; have := hb.2 _ _ hc; omega
  · exact ha.2 _ _ hc

theorem Balanced.one {t : GTok} (h1 : t ≠ .lparen) (h2 : t ≠ .rparen) : Balanced [t] := by
  have hd : ∀ ts, depth (t :: ts) = depth ts := by intro ts; cases t <;> first | rfl | contradiction
  refine ⟨by rw [hd]; rfl, ?_⟩
  intro a b h
  cases a with
  | nil => simp [depth]
  | cons x xs =>
    simp only [List.cons_append, List.cons.injEq] at h
    obtain ⟨rfl, h⟩ := h
    have : xs = [] := by cases xs <;> simp_all
    rw [this, hd]; simp [depth]

theorem Balanced.wrap {ts : List GTok} (h : Balanced ts) : Balanced (.lparen :: (ts ++ [.rparen])) := by
  refine ⟨by simp [depth, depth_append, h.1], ?_⟩
  intro a b he
  cases a with
  | nil => simp [depth]
  | cons x xs =>
    simp only [List.cons_append, List.cons.injEq] at he
    obtain ⟨rfl, he⟩ := he
    simp only [depth]
    rcases List.append_eq_append_iff.1 he with ⟨c, rfl, hc⟩ | ⟨c, hc, rfl⟩
    · rw [depth_append, h.1]
      cases c with
      | nil => simp [depth]
      | cons y ys =>
        simp only [List.cons_append, List.cons.injEq] at hc
        obtain ⟨rfl, hc⟩ := hc
        have : ys = [] := by cases ys <;> simp_all
        rw [this]; simp [depth]
    · have := h.2 _ _ hc; omega

theorem toks_balanced (g : GEx) : Balanced g.toks := by
  have op : ∀ o, Balanced [GTok.op o] := fun o => .one (by simp) (by simp)
  induction g with
  | name | num => exact .one (by simp) (by simp)
  | paren g ih => exact ih.wrap
  | call0 f ih => exact ih.append (Balanced.wrap (ts := []) ⟨rfl, by intro a b h; simp_all [depth]⟩)
  | call f a ihf iha => exact ihf.append iha.wrap
  | index a b iha ihb => exact iha.append (Balanced.append (a := [.lbrack]) (.one (by simp) (by simp)) (ihb.append (.one (by simp) (by simp))))
  | sel g t ih => exact ih.append (Balanced.append (a := [.dot]) (.one (by simp) (by simp)) (.one (by simp) (by simp)))
  | un o g ih =>
    refine Balanced.append (a := [o.tok]) (.one ?_ ?_) ih <;>
    · rcases o.tok_cases with ⟨x, hx⟩ | hx <;> rw [hx] <;> simp
  | bin o a b iha ihb => exact iha.append (Balanced.append (a := [.op o]) (op o) ihb)
  | cond => exact ⟨rfl, by intro a b h; simp_all [depth, GEx.toks]⟩

theorem toks_ne_nil (g : GEx) (h : g.Real) : g.toks ≠ [] := by
  cases g <;> simp_all [GEx.toks, GEx.Real]

/-- The token is no parenthesis. -/
def isWord : GTok → Bool
  | .lparen | .rparen => false
  | _ => true

/-- The number of tokens other than parentheses. -/
def words (ts : List GTok) : Nat := ts.countP isWord

theorem words_append (a b : List GTok) : words (a ++ b) = words a + words b := List.countP_append

theorem words_tok (o : GUn) (ts : List GTok) : words (o.tok :: ts) = words ts + 1 := by
  cases o <;> simp [words, GUn.tok, isWord, List.countP_cons]

theorem words_strip (g : GEx) : words g.strip.toks = words g.toks := by
  induction g with
  | un o g ih => simp only [GEx.strip, GEx.toks, words_tok, ih]
  | name | num | paren | call0 | call | index | sel | bin | cond =>
    simp_all [GEx.strip, GEx.toks, words, isWord, List.countP_cons, List.countP_append]

/-- Two lists are cut at the same place, if the token there is no parenthesis and the same number of such tokens goes before. -/
theorem cut_eq {x y : GTok} (hx : isWord x = true) (hy : isWord y = true) : ∀ {a a' b b' : List GTok},
    a ++ x :: b = a' ++ y :: b' → words a = words a' → a = a' ∧ x = y ∧ b = b' := by
  intro a
  induction a with
  | nil =>
    intro a' b b' h hw
    cases a' with
    | nil => simpa using h
    | cons z zs =>
      simp only [List.nil_append, List.cons_append, List.cons.injEq] at h
      obtain ⟨rfl, _⟩ := h
      simp [words, hx] at hw
  | cons z zs ih =>
    intro a' b b' h hw
    cases a' with
    | nil =>
      simp only [List.nil_append, List.cons_append, List.cons.injEq] at h
      obtain ⟨rfl, _⟩ := h
      simp [words, hy] at hw
    | cons z' zs' =>
      simp only [List.cons_append, List.cons.injEq] at h
      obtain ⟨rfl, h⟩ := h
      have := ih h (by simpa [words, List.countP_cons] using hw)
      exact ⟨by rw [this.1], this.2⟩

/-- Between parentheses that belong together, all parentheses are closed only at the end. -/
theorem wrap_prefix {ts a b : List GTok} (h : Balanced ts) (he : .lparen :: (ts ++ [.rparen]) = a ++ b) (ha : a ≠ []) (hb : b ≠ []) :
    1 ≤ depth a := by
  cases a with
  | nil => exact absurd rfl ha
  | cons x xs =>
    simp only [List.cons_append, List.cons.injEq] at he
    obtain ⟨rfl, he⟩ := he
    simp only [depth]
    rcases List.append_eq_append_iff.1 he with ⟨c, rfl, hc⟩ | ⟨c, hc, rfl⟩
    · cases c with
      | nil => rw [List.append_nil, h.1]; omega
      | cons y ys =>
        simp only [List.cons_append, List.cons.injEq] at hc
        obtain ⟨_, hc⟩ := hc
        exact absurd (List.append_eq_nil_iff.1 hc.symm).2 hb
    · have := h.2 _ _ hc; omega

/-- Only an expression in parentheses starts with a parenthesis that is closed at the end. -/
theorem toks_paren_only (g h : GEx) (hg : g.Real) (hp : ∀ k, g ≠ .paren k) : g.toks ≠ (GEx.paren h).toks := by
  intro he
  have hb := toks_balanced h
  have cut : ∀ a b, g.toks = a ++ b → a ≠ [] → b ≠ [] → depth a = 0 → False := by
    intro a b h1 h2 h3 h4
    have := wrap_prefix hb (he.symm.trans h1) h2 h3
    omega
  cases g with
  | name | num => simp [GEx.toks] at he
  | paren k => exact hp k rfl
  | call0 f => exact cut _ _ rfl (toks_ne_nil f hg) (by simp) (toks_balanced f).1
  | call f a => exact cut _ _ rfl (toks_ne_nil f hg.1) (by simp) (toks_balanced f).1
  | index f a => exact cut _ _ rfl (toks_ne_nil f hg.1) (by simp) (toks_balanced f).1
  | sel f t => exact cut _ _ rfl (toks_ne_nil f hg) (by simp) (toks_balanced f).1
  | un o f => exact cut [o.tok] _ rfl (by simp) (toks_ne_nil f hg) (by rw [depth_tok]; rfl)
  | bin o a b => exact cut _ _ rfl (toks_ne_nil a hg.1) (by simp) (toks_balanced a).1
  | cond => exact hg

/-- Two balanced texts with a balanced argument each are cut at the same place. -/
theorem call_cut {a a' b b' : List GTok} (ha : Balanced a) (ha' : Balanced a') (hb : Balanced b) (hb' : Balanced b')
    (h : a ++ .lparen :: b = a' ++ .lparen :: b') : a = a' ∧ b = b' := by
  have one : ∀ {a a' b b' : List GTok}, Balanced a → Balanced a' → Balanced b → Balanced b' → ∀ c, a' = a ++ c →
      .lparen :: b = c ++ .lparen :: b' → a = a' ∧ b = b' := by
    intro a a' b b' ha ha' hb hb' c hc hd
    cases c with
    | nil => simp only [List.append_nil] at hc; simp only [List.nil_append, List.cons.injEq, true_and] at hd; exact ⟨hc.symm, hd⟩
    | cons x xs =>
      simp only [List.cons_append, List.cons.injEq] at hd
      obtain ⟨rfl, hd⟩ := hd
      have h1 : depth (GTok.lparen :: xs) = 0 := by
        have := ha'.1; rw [hc, depth_append, ha.1] at this; omega
      have h2 := hb.2 _ _ hd
      simp only [depth] at h1
      omega
  rcases List.append_eq_append_iff.1 h with ⟨c, hc, hd⟩ | ⟨c, hc, hd⟩
  · exact one ha ha' hb hb' c hc hd
  · have := one ha' ha hb' hb c hc hd
    exact ⟨this.1.symm, this.2.symm⟩

/-- The text and the tree without parentheses determine the tree. -/
theorem toks_strip_inj : ∀ (g g' : GEx), g.Real → g'.Real → g.toks = g'.toks → g.strip = g'.strip → g = g' := by
  intro g
  induction g with
  | paren h ih =>
    intro g' hr hr' ht hs
    by_cases hp : ∃ k, g' = .paren k
    · obtain ⟨k, rfl⟩ := hp
      simp only [GEx.toks, List.cons.injEq, true_and, List.append_cancel_right_eq] at ht
      rw [ih k hr hr' ht hs]
    · exact absurd ht.symm (toks_paren_only g' h hr' (fun k hk => hp ⟨k, hk⟩))
  | name t =>
    intro g' hr hr' ht hs
    cases g' with
    | paren k => exact absurd ht (toks_paren_only _ k hr (by simp))
    | _ => simp_all [GEx.strip]
  | num t =>
    intro g' hr hr' ht hs
    cases g' with
    | paren k => exact absurd ht (toks_paren_only _ k hr (by simp))
    | _ => simp_all [GEx.strip]
  | call0 f ih =>
    intro g' hr hr' ht hs
    cases g' with
    | paren k => exact absurd ht (toks_paren_only _ k hr (by simp))
    | call0 f' =>
      simp only [GEx.toks, List.append_cancel_right_eq, GEx.strip, GEx.call0.injEq] at ht hs
      rw [ih f' hr hr' ht hs]
    | _ => simp [GEx.strip] at hs
  | call f a ihf iha =>
    intro g' hr hr' ht hs
    cases g' with
    | paren k => exact absurd ht (toks_paren_only _ k hr (by simp))
    | call f' a' =>
      simp only [GEx.toks, GEx.strip, GEx.call.injEq] at ht hs
      have ht : f.toks ++ .lparen :: a.toks = f'.toks ++ .lparen :: a'.toks := by
        have : (f.toks ++ .lparen :: a.toks) ++ [GTok.rparen] = (f'.toks ++ .lparen :: a'.toks) ++ [.rparen] := by simpa using ht
        exact List.append_cancel_right this
      obtain ⟨h1, h2⟩ := call_cut (toks_balanced f) (toks_balanced f') (toks_balanced a) (toks_balanced a') ht
      rw [ihf f' hr.1 hr'.1 h1 hs.1, iha a' hr.2 hr'.2 h2 hs.2]
    | _ => simp [GEx.strip] at hs
  | index f a ihf iha =>
    intro g' hr hr' ht hs
    cases g' with
    | paren k => exact absurd ht (toks_paren_only _ k hr (by simp))
    | index f' a' =>
      simp only [GEx.toks, GEx.strip, GEx.index.injEq] at ht hs
      obtain ⟨h1, _, h2⟩ := cut_eq rfl rfl ht (by rw [← words_strip f, ← words_strip f', hs.1])
      rw [ihf f' hr.1 hr'.1 h1 hs.1, iha a' hr.2 hr'.2 (List.append_cancel_right h2) hs.2]
    | _ => simp [GEx.strip] at hs
  | sel f t ih =>
    intro g' hr hr' ht hs
    cases g' with
    | paren k => exact absurd ht (toks_paren_only _ k hr (by simp))
    | sel f' t' =>
      simp only [GEx.strip, GEx.sel.injEq] at hs
      obtain ⟨hs, rfl⟩ := hs
      simp only [GEx.toks, List.append_cancel_right_eq] at ht
      rw [ih f' hr hr' ht hs]
    | _ => simp [GEx.strip] at hs
  | un o f ih =>
    intro g' hr hr' ht hs
    cases g' with
    | paren k => exact absurd ht (toks_paren_only _ k hr (by simp))
    | un o' f' =>
      simp only [GEx.toks, GEx.strip, List.cons.injEq, GEx.un.injEq] at ht hs
      rw [ih f' hr hr' ht.2 hs.2, hs.1]
    | _ => simp [GEx.strip] at hs
  | bin o f a ihf iha =>
    intro g' hr hr' ht hs
    cases g' with
    | paren k => exact absurd ht (toks_paren_only _ k hr (by simp))
    | bin o' f' a' =>
      simp only [GEx.toks, GEx.strip, GEx.bin.injEq] at ht hs
      obtain ⟨h1, _, h2⟩ := cut_eq rfl rfl ht (by rw [← words_strip f, ← words_strip f', hs.2.1])
      rw [ihf f' hr.1 hr'.1 h1 hs.2.1, iha a' hr.2 hr'.2 h2 hs.2.2, hs.1]
    | _ => simp [GEx.strip] at hs
  | cond => intro g' hr; exact hr.elim

theorem Derives.bin_inv {p : Nat} {ts : List GTok} {o : GOp} {a b : GEx} (h : Derives p ts (.bin o a b)) :
    p ≤ goPrec o ∧ Derives (goPrec o) a.toks a ∧ Derives (goPrec o + 1) b.toks b := by
  generalize hg : GEx.bin o a b = g at h
  induction h with
  | bin p o' ts a' us b' ho ha hb =>
    cases hg
    rw [ha.toks.1] at ha
    rw [hb.toks.1] at hb
    subst ho
    exact ⟨Nat.le_refl _, ha, hb⟩
  | up p ts g _ _ ih => have := ih hg; exact ⟨by omega, this.2⟩
  | _ => cases hg

theorem Derives.un_inv {p : Nat} {ts : List GTok} {o : GUn} {a : GEx} (h : Derives p ts (.un o a)) :
    p ≤ 6 ∧ Derives 6 a.toks a := by
  generalize hg : GEx.un o a = g at h
  induction h with
  | un o' ts a' ha => cases hg; rw [ha.toks.1] at ha; exact ⟨Nat.le_refl _, ha⟩
  | up p ts g _ _ ih => have := ih hg; exact ⟨by omega, this.2⟩
  | _ => cases hg

theorem Derives.paren_inv {p : Nat} {ts : List GTok} {a : GEx} (h : Derives p ts (.paren a)) : Derives 1 a.toks a := by
  generalize hg : GEx.paren a = g at h
  induction h with
  | paren ts a' ha => cases hg; rw [ha.toks.1] at ha; exact ha
  | up p ts g _ _ ih => exact ih hg
  | _ => cases hg

theorem Derives.call0_inv {p : Nat} {ts : List GTok} {a : GEx} (h : Derives p ts (.call0 a)) : Derives 7 a.toks a := by
  generalize hg : GEx.call0 a = g at h
  induction h with
  | call0 ts a' ha => cases hg; rw [ha.toks.1] at ha; exact ha
  | up p ts g _ _ ih => exact ih hg
  | _ => cases hg

theorem Derives.sel_inv {p : Nat} {ts : List GTok} {a : GEx} {t : Text} (h : Derives p ts (.sel a t)) : Derives 7 a.toks a := by
  generalize hg : GEx.sel a t = g at h
  induction h with
  | sel ts a' t ha => cases hg; rw [ha.toks.1] at ha; exact ha
  | up p ts g _ _ ih => exact ih hg
  | _ => cases hg

theorem Derives.call_inv {p : Nat} {ts : List GTok} {a b : GEx} (h : Derives p ts (.call a b)) :
    Derives 7 a.toks a ∧ Derives 1 b.toks b := by
  generalize hg : GEx.call a b = g at h
  induction h with
  | call ts a' us b' ha hb => cases hg; rw [ha.toks.1] at ha; rw [hb.toks.1] at hb; exact ⟨ha, hb⟩
  | up p ts g _ _ ih => exact ih hg
  | _ => cases hg

theorem Derives.index_inv {p : Nat} {ts : List GTok} {a b : GEx} (h : Derives p ts (.index a b)) :
    Derives 7 a.toks a ∧ Derives 1 b.toks b := by
  generalize hg : GEx.index a b = g at h
  induction h with
  | index ts a' us b' ha hb => cases hg; rw [ha.toks.1] at ha; rw [hb.toks.1] at hb; exact ⟨ha, hb⟩
  | up p ts g _ _ ih => exact ih hg
  | _ => cases hg

theorem derives_safe (e : PEx) (hp : e.Plain) : ∀ {p ts}, Derives p ts (tree e) → e.Safe ∧ p ≤ e.level := by
  have cast : ∀ (c : Option Text) (e : PEx), (∀ {p ts}, Derives p ts (tree e) → e.Safe ∧ p ≤ e.level) →
      ∀ {p ts}, Derives p ts (castGo c (tree e)) → e.Safe ∧ (c = none → p ≤ e.level) := by
    intro c e ih p ts h
    cases c with
    | none => exact ⟨(ih h).1, fun _ => (ih h).2⟩
    | some t => exact ⟨(ih h.call_inv.2).1, by simp⟩
  have seven : ∀ {p ts g}, Derives p ts g → p ≤ 7 := fun h => h.parse.2.1
  have eq7 : ∀ e : PEx, 7 ≤ e.level → e.level = 7 := fun e h => by have := level_bounds e; omega
  induction e with
  | num z =>
    intro p ts h
    refine ⟨trivial, ?_⟩
    simp only [tree] at h
    simp only [PEx.level]
    split
    · rename_i hz; rw [if_pos hz] at h; exact h.un_inv.1
    · exact seven h
  | word t => intro p ts h; exact ⟨trivial, seven h⟩
  | member t => intro p ts h; exact ⟨trivial, seven h⟩
  | paren e ih => intro p ts h; exact ⟨(ih hp h.paren_inv).1, seven h⟩
  | call e ih => intro p ts h; have := ih hp h.call0_inv; exact ⟨⟨this.1, eq7 _ this.2⟩, seven h⟩
  | dot e t ih => intro p ts h; have := ih hp h.sel_inv; exact ⟨⟨this.1, eq7 _ this.2⟩, seven h⟩
  | index a b iha ihb =>
    intro p ts h
    have h1 := iha hp.1 h.index_inv.1
    have h2 := ihb hp.2 h.index_inv.2
    exact ⟨⟨h1.1, h2.1, eq7 _ h1.2⟩, seven h⟩
  | isset a b iha ihb =>
    intro p ts h
    obtain ⟨hl, h, _⟩ := h.bin_inv
    obtain ⟨_, ha, hb⟩ := h.bin_inv
    have h1 := iha hp.1 ha
    have h2 := ihb hp.2 hb
    exact ⟨⟨h1.1, h2.1, h1.2, h2.2⟩, hl⟩
  | lengthof e ih => intro p ts h; exact ⟨(ih hp h.call_inv.2.call_inv.2).1, seven h⟩
  | numbits e ih => intro p ts h; exact ⟨(ih hp h.call_inv.2.call_inv.2).1, seven h⟩
  | valueof e ih => intro p ts h; exact ih hp h
  | bang e ih => intro p ts h; have := ih hp h.un_inv.2; exact ⟨this, h.un_inv.1⟩
  | bin o ca cb a b iha ihb =>
    intro p ts h
    obtain ⟨hl, ha, hb⟩ := h.bin_inv
    have h1 := cast ca a (iha hp.1) ha
    have h2 := cast cb b (ihb hp.2) hb
    exact ⟨⟨h1.1, h2.1, h1.2, h2.2⟩, hl⟩
  | tilde | sign | tern => exact hp.elim

theorem words_pos (g : GEx) (h : g.Real) : 1 ≤ words g.toks := by
  induction g with
  | un o g ih => simp only [GEx.toks, words_tok]; omega
  | paren g ih | call0 g ih | sel g t ih =>
    have := ih h
    simp only [GEx.toks, words, List.countP_append, List.countP_cons] at this ⊢
    omega
  | call a b iha ihb | index a b iha ihb | bin o a b iha ihb =>
    have := iha h.1
    simp only [GEx.toks, words, List.countP_append] at this ⊢
    omega
  | name | num => simp [GEx.toks, words, isWord]
  | cond => exact h.elim

theorem words_cast (c : Option Text) (ts : List GTok) (g : GEx) (h : words ts ≤ words g.toks) :
    words (castToks c ts) ≤ words (castGo c g).toks ∧ (words (castToks c ts) = words (castGo c g).toks → words ts = words g.toks) := by
  cases c with
  | none => exact ⟨h, id⟩
  | some t =>
    simp only [castToks, castGo, GEx.toks, words, List.countP_append, List.countP_cons, List.cons_append, List.nil_append,
      List.countP_nil] at h ⊢
    exact ⟨by omega, by omega⟩

theorem castGo_real (c : Option Text) (g : GEx) (h : (castGo c g).Real) : g.Real := by
  cases c with
  | none => exact h
  | some t => exact h.2

/-- The text has no more words than the meaning, and fewer with `~`. -/
theorem words_print (e : PEx) : ∀ ts, printGo e = some ts → (meant e).Real →
    words ts ≤ words (meant e).toks ∧ (words ts = words (meant e).toks → e.Plain) := by
  induction e with
  | num z =>
    intro ts h _
    simp only [printGo, Option.some.injEq] at h
    subst h
    refine ⟨?_, fun _ => trivial⟩
    simp only [numToks, meant]
    split <;> simp [GEx.toks, GUn.tok]
  | word t => intro ts h _; cases h; exact ⟨Nat.le_refl _, fun _ => trivial⟩
  | member t => intro ts h _; cases h; exact ⟨Nat.le_refl _, fun _ => trivial⟩
  | valueof e ih => exact ih
  | paren e ih =>
    intro ts h hr
    simp only [printGo, Option.map_eq_some_iff] at h
    obtain ⟨us, hu, rfl⟩ := h
    have := ih us hu hr
    simp only [meant, words, List.countP_append, List.countP_cons, List.countP_nil, isWord] at this ⊢
    exact ⟨by simp; omega, fun h => this.2 (by simp at h; omega)⟩
  | call e ih | dot e t ih | lengthof e ih | numbits e ih =>
    intro ts h hr
    simp only [printGo, Option.map_eq_some_iff] at h
    obtain ⟨us, hu, rfl⟩ := h
    have := ih us hu (by simpa [meant, GEx.Real] using hr)
    simp only [meant, GEx.toks, words, List.countP_append, List.countP_cons, List.countP_nil, isWord, List.cons_append,
      List.nil_append] at this ⊢
    exact ⟨by simp; omega, fun h => this.2 (by simp at h; omega)⟩
  | bang e ih =>
    intro ts h hr
    simp only [printGo, Option.map_eq_some_iff] at h
    obtain ⟨us, hu, rfl⟩ := h
    have := ih us hu hr
    simp only [meant, GEx.toks, words_tok]
    rw [show words (GTok.bang :: us) = words us + 1 from words_tok .bang us]
    exact ⟨by omega, fun h => this.2 (by omega)⟩
  | index a b iha ihb =>
    intro ts h hr
    simp only [printGo, Option.bind_eq_some_iff, Option.map_eq_some_iff] at h
    obtain ⟨us, hu, vs, hv, rfl⟩ := h
    have h1 := iha us hu hr.1
    have h2 := ihb vs hv hr.2
    simp only [meant, GEx.toks, words, List.countP_append, List.countP_cons, List.countP_nil, isWord] at h1 h2 ⊢
    exact ⟨by omega, fun h => ⟨h1.2 (by omega), h2.2 (by omega)⟩⟩
  | isset a b iha ihb =>
    intro ts h hr
    simp only [printGo, Option.bind_eq_some_iff, Option.map_eq_some_iff] at h
    obtain ⟨us, hu, vs, hv, rfl⟩ := h
    have h1 := iha us hu hr.1.1
    have h2 := ihb vs hv hr.1.2
    simp only [meant, GEx.toks, words, List.countP_append, List.countP_cons, List.countP_nil, isWord] at h1 h2 ⊢
    exact ⟨by omega, fun h => ⟨h1.2 (by omega), h2.2 (by omega)⟩⟩
  | bin o ca cb a b iha ihb =>
    intro ts h hr
    simp only [printGo, Option.bind_eq_some_iff, Option.map_eq_some_iff] at h
    obtain ⟨us, hu, vs, hv, rfl⟩ := h
    have h1 := iha us hu (castGo_real _ _ hr.1)
    have h2 := ihb vs hv (castGo_real _ _ hr.2)
    have c1 := words_cast ca us _ h1.1
    have c2 := words_cast cb vs _ h2.1
    have key : ∀ (x y : List GTok), words (x ++ .op o :: y) = words x + words y + 1 := by
      intro x y; simp [words, List.countP_append, List.countP_cons, isWord]; omega
    simp only [meant, GEx.toks, key]
    exact ⟨by omega, fun h => ⟨h1.2 (c1.2 (by omega)), h2.2 (c2.2 (by omega))⟩⟩
  | tilde e ih =>
    intro ts h hr
    cases h
    have := words_pos (meant e) hr
    simp only [meant, GEx.toks, words_tok]
    have h1 : words [GTok.name unsupportedName] = 1 := by simp [words, isWord]
    exact ⟨by omega, by omega⟩
  | sign m e ih => intro ts h; cases h
  | tern int c a b => intro ts _ h; exact h.elim

theorem strip_real (g : GEx) (h : g.Real) : g.strip.Real := by
  induction g with
  | name | num => trivial
  | paren g ih | call0 g ih | sel g t ih | un o g ih => exact ih h
  | call a b iha ihb | index a b iha ihb | bin o a b iha ihb => exact ⟨iha h.1, ihb h.2⟩
  | cond => exact h.elim

/-- **C55 (exact).** Go reads the text of an expression as it was meant exactly if the operands hold together more tightly
than their operators in Go, or are in parentheses, and there is no `~`, unary plus or minus or `?:` in it (on something
without a known value). -/
theorem C55_exact_partial (e : PEx) : (∃ ts p g, printGo e = some ts ∧ Derives p ts g ∧ g.strip = meant e) ↔ e.Safe := by
  constructor
  · rintro ⟨ts, p, g, ht, hd, hs⟩
    obtain ⟨htk, hr⟩ := hd.toks
    have hm : (meant e).Real := hs ▸ strip_real g hr
    have hp : e.Plain := by
      refine (words_print e ts ht hm).2 ?_
      rw [← hs, words_strip, htk]
    have : g = tree e := by
      have hs' := printGo_tree e hp
      rw [ht, Option.some.injEq] at hs'
      refine toks_strip_inj g (tree e) hr ?_ (by rw [← htk, hs']) (by rw [hs, tree_strip e hp])
      have key : ∀ g : GEx, g.strip.Real → g.Real := by
        intro g
        induction g with
        | name | num => exact id
        | paren g ih | call0 g ih | sel g t ih | un o g ih => exact ih
        | call a b iha ihb | index a b iha ihb | bin o a b iha ihb => exact fun h => ⟨iha h.1, ihb h.2⟩
        | cond => exact id
      exact key _ (by rw [tree_strip e hp]; exact hm)
    rw [this] at hd
    exact (derives_safe e hp hd).1
  · intro h
    obtain ⟨ts, ht, ⟨g, hg⟩, hs⟩ := C55_read_partial e h
    exact ⟨ts, 1, g, ht, hg, hs 1 g hg⟩

/-- `(a + b) * c & d` with a cast of `d`: everything is in place. -/
example : (PEx.bin .band none (some "uint8".toList) (.bin .mul none none (.paren (.bin .add none none (.member ['A']) (.num 1)))
    (.member ['C'])) (.bin .add none none (.member ['D']) (.num (-3)))).Safe := by
  simp [PEx.Safe, PEx.level, goPrec]

/-! ## Where the precedences of the schema language and of Go differ -/

/-- The order of the alternatives of /repo/internal/parser/ZserioParser.g4:354-363: larger numbers bind more tightly. -/
def zserioPrec : GOp → Nat
  | .mul | .div | .mod => 9
  | .add | .sub => 8
  | .shl | .shr => 7
  | .lt | .le | .gt | .ge => 6
  | .eq | .ne => 5
  | .band => 4
  | .bxor => 3
  | .bor => 2
  | .land => 1
  | .lor => 0

/-- **C55, exact for two operators.** Of a text `x o y o' z` without parentheses and casts Go makes what was meant exactly if
its precedences put the operators in the same order as those of the schema language. -/
theorem C55_pairs_partial (o o' : GOp) (x y z : Text) :
    let right : PEx := .bin o none none (.member x) (.bin o' none none (.member y) (.member z))
    let left : PEx := .bin o' none none (.bin o none none (.member x) (.member y)) (.member z)
    let intended := if zserioPrec o < zserioPrec o' then right else left
    (∃ ts p g, printGo intended = some ts ∧ Derives p ts g ∧ g.strip = meant intended) ↔
      (zserioPrec o < zserioPrec o' ↔ goPrec o < goPrec o') := by
  intro right left intended
  rw [C55_exact_partial]
  have hb := goPrec_bounds o
  have hb' := goPrec_bounds o'
  by_cases h : zserioPrec o < zserioPrec o'
  · have : intended = right := if_pos h
    rw [this]
    simp only [right, PEx.Safe, PEx.level, true_and, forall_const, h, true_iff]
    omega
  · have : intended = left := if_neg h
    rw [this]
    simp only [left, PEx.Safe, PEx.level, true_and, forall_const, h, false_iff]
    omega

/-- **C55, violated.** `a | b + c`, which is `a | (b + c)`, is read by Go as `(a | b) + c`. -/
theorem C55_violated_or (a b c : Text) : let e : PEx := .bin .bor none none (.member a) (.bin .add none none (.member b) (.member c))
    ∃ ts, printGo e = some ts ∧
      ∀ p g, Derives p ts g → g = .bin .add (.bin .bor (.sel (.name vName) a) (.sel (.name vName) b)) (.sel (.name vName) c) := by
  refine ⟨_, rfl, fun p g h => ?_⟩
  have : Derives 4 (((([.name vName, .dot, .name a] ++ GTok.op .bor :: [.name vName, .dot, .name b])) ++
      .op .add :: [.name vName, .dot, .name c]) : List GTok)
      (.bin .add (.bin .bor (.sel (.name vName) a) (.sel (.name vName) b)) (.sel (.name vName) c)) := by
    have sel : ∀ q t, 1 ≤ q → q ≤ 7 → Derives q [.name vName, .dot, .name t] (.sel (.name vName) t) :=
      fun q t h1 h2 => (Derives.sel _ _ t (.name vName)).down h1 h2
    exact .bin 4 .add _ _ _ _ rfl (.bin 4 .bor _ _ _ _ rfl (sel 4 a (by decide) (by decide)) (sel 5 b (by decide) (by decide)))
      (sel 5 c (by decide) (by decide))
  exact h.unique this

/-- **C55, violated.** `!isset(x, y)` is never read as it was meant: the operator `!` applies to the first operand. -/
theorem C55_violated_isset (x y : PEx) (ts : List GTok) (p : Nat) (g : GEx) (h : printGo (.bang (.isset x y)) = some ts)
    (hd : Derives p ts g) : g.strip ≠ meant (.bang (.isset x y)) := by
  intro hs
  have := (C55_exact_partial _).1 ⟨ts, p, g, h, hd, hs⟩
  simp [PEx.Safe, PEx.level] at this

/-- **C55, violated.** A sign before something without a known value makes the generator crash. -/
theorem C55_violated_sign (minus : Bool) (e : PEx) : printGo (.sign minus e) = none := rfl

/-- **C55, violated.** The text of `~x` does not depend on `x`, if the value of `x` is not known. -/
theorem C55_violated_tilde (e : PEx) : printGo (.tilde e) = some [.name "UNSUPPORTED".toList] := rfl

/-- **C55, violated.** `?:` inside another operator does not become an expression of Go at all. -/
theorem C55_violated_ternary (o : GOp) (ca cb : Option Text) (int : Bool) (c a b d : PEx) (ts : List GTok) (p : Nat) (g : GEx)
    (h : printGo (.bin o ca cb (.tern int c a b) d) = some ts) : ¬ Derives p ts g := by
  intro hd
  have htk := hd.toks.1
  have no : ∀ (g : GEx) t, GTok.other t ∉ g.toks := by
    intro g
    induction g with
    | un o g ih => intro t; rcases o.tok_cases with ⟨x, hx⟩ | hx <;> simp [GEx.toks, hx, ih t]
    | _ => simp_all [GEx.toks]
  have yes : ∀ (c : Option Text) (t : GTok) (ts : List GTok), t ∈ ts → t ∈ castToks c ts := by
    intro c t ts ht; cases c <;> simp [castToks, ht]
  simp only [printGo, Option.bind_eq_some_iff, Option.map_eq_some_iff] at h
  obtain ⟨us, ⟨_, _, _, _, _, _, rfl⟩, vs, _, rfl⟩ := h
  refine no g "if".toList ?_
  rw [← htk]
  exact List.mem_append_left _ (yes _ _ _ (by simp))

/-- One operator of each row of the grammar. -/
def GOp.row : GOp → GOp
  | .mul | .div | .mod => .mul
  | .add | .sub => .add
  | .shl | .shr => .shl
  | .lt | .le | .gt | .ge => .lt
  | .eq | .ne => .eq
  | o => o

/-- The pairs of operators that Go puts in another order, as they follow each other in the text. -/
theorem C55_violated_pairs (o o' : GOp) : ¬ (zserioPrec o < zserioPrec o' ↔ goPrec o < goPrec o') ↔ (o.row, o'.row) ∈ ([
    (.add, .shl), (.add, .band),
    (.shl, .mul), (.shl, .add),
    (.lt, .band), (.lt, .bxor), (.lt, .bor),
    (.eq, .lt), (.eq, .band), (.eq, .bxor), (.eq, .bor),
    (.band, .mul), (.band, .add), (.band, .shl), (.band, .lt), (.band, .eq),
    (.bxor, .add), (.bxor, .lt), (.bxor, .eq),
    (.bor, .add), (.bor, .lt), (.bor, .eq), (.bor, .bxor)] : List (GOp × GOp)) := by
  revert o o'
  intro o o'
  cases o <;> cases o' <;> decide

end Verif
