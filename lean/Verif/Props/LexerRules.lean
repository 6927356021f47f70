import Verif.Lexer

/-!
# Words, literals and comments: specification and rules (C82)

The specification describes what a text is made of: pieces that are operators, keywords, names, literals, white space and
comments (`Piece`), and which pieces may stand next to each other without white space (`mayTouch`).
-/

namespace Verif

/-! ## Specification -/

/-- The end of a floating point literal: `e`, a sign or none, digits. -/
inductive ExponentText : List Char → Prop
  | mk {e : Char} {sign digits : List Char} : e = 'e' ∨ e = 'E' → sign = [] ∨ sign = ['+'] ∨ sign = ['-'] → digits ≠ [] →
      (∀ d ∈ digits, d.isDigit = true) → ExponentText (e :: (sign ++ digits))

/-- A hexadecimal digit. -/
def HexDigit (c : Char) : Prop := c ∈ "0123456789abcdefABCDEF".toList

/-- An octal digit. -/
def OctalDigit (c : Char) : Prop := c ∈ "01234567".toList

/-- A character between the quotes of a string literal, as it is written. -/
inductive StringCharText : List Char → Prop
  | plain {c : Char} : c ≠ '"' → c ≠ '\\' → c ≠ '\r' → c ≠ '\n' → c ≠ '\x0c' → StringCharText [c]
  | escaped {c : Char} : c ∈ "\"\\rnft".toList → StringCharText ['\\', c]
  | unicode {a b c d : Char} : HexDigit a → HexDigit b → HexDigit c → HexDigit d → StringCharText ['\\', 'u', a, b, c, d]
  | hex {a b : Char} : HexDigit a → HexDigit b → StringCharText ['\\', 'x', a, b]
  | octal {a : Char} : OctalDigit a → StringCharText ['\\', '0', a]

/-- How literals are written. -/
inductive LiteralText : TokenKind → List Char → Prop
  | true : LiteralText .bool "true".toList
  | false : LiteralText .bool "false".toList
  | zero : LiteralText .decimal ['0']
  | decimal {d : Char} {ds : List Char} : d.isDigit = true → d ≠ '0' → (∀ d ∈ ds, d.isDigit = true) → LiteralText .decimal (d :: ds)
  | binary {ds : List Char} {b : Char} : ds ≠ [] → (∀ d ∈ ds, d = '0' ∨ d = '1') → b = 'b' ∨ b = 'B' →
      LiteralText .binary (ds ++ [b])
  | octal {ds : List Char} : ds ≠ [] → (∀ d ∈ ds, OctalDigit d) → LiteralText .octal ('0' :: ds)
  | hexadecimal {x : Char} {ds : List Char} : x = 'x' ∨ x = 'X' → ds ≠ [] → (∀ d ∈ ds, HexDigit d) →
      LiteralText .hexadecimal ('0' :: x :: ds)
  | double {whole fraction exponent : List Char} : whole ≠ [] ∨ fraction ≠ [] → (∀ d ∈ whole, d.isDigit = true) →
      (∀ d ∈ fraction, d.isDigit = true) → exponent = [] ∨ ExponentText exponent →
      LiteralText .double (whole ++ '.' :: (fraction ++ exponent))
  | doubleWhole {whole exponent : List Char} : whole ≠ [] → (∀ d ∈ whole, d.isDigit = true) → ExponentText exponent →
      LiteralText .double (whole ++ exponent)
  | float {t : List Char} {f : Char} : LiteralText .double t → f = 'f' ∨ f = 'F' → LiteralText .float (t ++ [f])
  | string {cs : List (List Char)} : (∀ c ∈ cs, StringCharText c) → LiteralText .string ('"' :: (cs.flatten ++ ['"']))

/-- The text of a token. -/
def Token.text : Token → List Char
  | .sym s => s.text
  | .keyword k => k.text
  | .literal _ t => t
  | .id name => name.text
  | .invalidString t => t
  | .invalidToken t => t

/-- Tokens of the language: names are not keywords, literals are written as literals. -/
def Token.Proper : Token → Prop
  | .sym _ => True
  | .keyword _ => True
  | .literal kind t => LiteralText kind t
  | .id name => (∀ k : Keyword, name.text ≠ k.text) ∧ name.text ≠ "true".toList ∧ name.text ≠ "false".toList
  | .invalidString _ => False
  | .invalidToken _ => False

/-- Whether a token may be followed directly by a text that begins with `c`: the two must not look like one longer token. -/
def mayTouch : Token → Char → Bool
  | .sym .divide, c => c != '/' && c != '*'
  | .sym .dot, c => !c.isDigit
  | .sym .lt, c => c != '<' && c != '='
  | .sym .gt, c => c != '='
  | .sym .assign, c => c != '='
  | .sym .bang, c => c != '='
  | .sym .and, c => c != '&'
  | .sym .or, c => c != '|'
  | .sym _, _ => true
  | .literal .string _, _ => true
  | .literal .bool _, c => !isIdChar c
  | .literal _ _, c => !isIdChar c && c != '.'
  | _, c => !isIdChar c

/-- What a schema is made of. -/
inductive Piece where
  | token (t : Token)
  | space (c : Char)
  | block (body : List Char)
  | line (body : List Char)

/-- What is written for it. -/
def Piece.text : Piece → List Char
  | .token t => t.text
  | .space c => [c]
  | .block body => '/' :: '*' :: (body ++ ['*', '/'])
  | .line body => '/' :: '/' :: body

/-- A piece by itself: white space, a comment that is closed at its end and not before, the rest of a line. -/
def Piece.Proper : Piece → Prop
  | .token t => t.Proper
  | .space c => c ∈ [' ', '\t', '\n', '\r', '\x0c']
  | .block body => ∀ before after, body ++ ['*', '/'] = before ++ '*' :: '/' :: after → after = []
  | .line body => ∀ c ∈ body, c ≠ '\n' ∧ c ≠ '\r' ∧ c ≠ '\x0c'

/-- A piece can stand in front of a text. -/
def Piece.Before (p : Piece) (after : List Char) : Prop :=
  match p, after with
  | _, [] => True
  | .token t, c :: _ => mayTouch t c = true
  | .space _, _ => True
  | .block _, _ => True
  | .line _, c :: _ => c = '\n' ∨ c = '\r' ∨ c = '\x0c'

/-- What is written for pieces. -/
def piecesText : List Piece → List Char
  | [] => []
  | p :: ps => p.text ++ piecesText ps

/-- The tokens among pieces. -/
def pieceTokens : List Piece → List Token
  | [] => []
  | .token t :: ps => t :: pieceTokens ps
  | _ :: ps => pieceTokens ps

/-- Pieces that can stand one after the other. -/
def PiecesFit : List Piece → Prop
  | [] => True
  | p :: ps => p.Proper ∧ p.Before (piecesText ps) ∧ PiecesFit ps

/-! ## Characters -/

theorem char_le_iff (a b : Char) : a ≤ b ↔ a.toNat ≤ b.toNat := Iff.rfl

theorem char_eq_iff (a b : Char) : a = b ↔ a.toNat = b.toNat := ⟨fun h => h ▸ rfl, fun h => Char.toNat_inj.1 h⟩

theorem isDigit_toNat (c : Char) : c.isDigit = true ↔ 48 ≤ c.toNat ∧ c.toNat ≤ 57 := by
  simp [Char.isDigit, UInt32.le_iff_toNat_le]

theorem isIdStart_toNat (c : Char) :
    isIdStart c = true ↔ 97 ≤ c.toNat ∧ c.toNat ≤ 122 ∨ 65 ≤ c.toNat ∧ c.toNat ≤ 90 ∨ c.toNat = 95 := by
  simp only [isIdStart, Bool.or_eq_true, Bool.and_eq_true, decide_eq_true_eq, beq_iff_eq, char_le_iff, char_eq_iff]
  show (97 ≤ c.toNat ∧ c.toNat ≤ 122 ∨ 65 ≤ c.toNat ∧ c.toNat ≤ 90) ∨ c.toNat = 95 ↔ _
  omega

theorem isIdChar_toNat (c : Char) : isIdChar c = true ↔
    97 ≤ c.toNat ∧ c.toNat ≤ 122 ∨ 65 ≤ c.toNat ∧ c.toNat ≤ 90 ∨ c.toNat = 95 ∨ 48 ≤ c.toNat ∧ c.toNat ≤ 57 := by
  simp only [isIdChar, Bool.or_eq_true, isIdStart_toNat, Bool.and_eq_true, decide_eq_true_eq, char_le_iff]
  show _ ∨ (48 ≤ c.toNat ∧ c.toNat ≤ 57) ↔ _
  omega

theorem isDigit_isIdChar {c : Char} (h : c.isDigit = true) : isIdChar c = true := by
  rw [isDigit_toNat] at h; rw [isIdChar_toNat]; omega

theorem isDigit_not_start {c : Char} (h : c.isDigit = true) : isIdStart c = false := by
  rw [isDigit_toNat] at h; rw [Bool.eq_false_iff, Ne, isIdStart_toNat]; omega

theorem isHexDig_toNat (c : Char) : isHexDig c = true ↔
    48 ≤ c.toNat ∧ c.toNat ≤ 57 ∨ 97 ≤ c.toNat ∧ c.toNat ≤ 102 ∨ 65 ≤ c.toNat ∧ c.toNat ≤ 70 := by
  simp only [isHexDig, Bool.or_eq_true, isDigit_toNat, Bool.and_eq_true, decide_eq_true_eq, char_le_iff]
  show (_ ∨ 97 ≤ c.toNat ∧ c.toNat ≤ 102) ∨ 65 ≤ c.toNat ∧ c.toNat ≤ 70 ↔ _
  omega

theorem isOctDigit_toNat (c : Char) : isOctDigit c = true ↔ 48 ≤ c.toNat ∧ c.toNat ≤ 55 := by
  simp only [isOctDigit, Bool.and_eq_true, decide_eq_true_eq, char_le_iff]
  rfl

theorem hexDigit_iff (c : Char) : HexDigit c ↔ isHexDig c = true := by
  rw [isHexDig_toNat]
  show c ∈ ['0', '1', '2', '3', '4', '5', '6', '7', '8', '9', 'a', 'b', 'c', 'd', 'e', 'f', 'A', 'B', 'C', 'D', 'E', 'F'] ↔ _
  simp only [List.mem_cons, List.not_mem_nil, char_eq_iff, or_false, Char.reduceToNat]
  omega

theorem octalDigit_iff (c : Char) : OctalDigit c ↔ isOctDigit c = true := by
  rw [isOctDigit_toNat]
  show c ∈ ['0', '1', '2', '3', '4', '5', '6', '7'] ↔ _
  simp only [List.mem_cons, List.not_mem_nil, char_eq_iff, or_false, Char.reduceToNat]
  omega

/-! ## The matchers say what literals look like -/

theorem isBoolText_iff (t : List Char) : isBoolText t = true ↔ LiteralText .bool t := by
  constructor
  · intro h
    simp only [isBoolText, Bool.or_eq_true, beq_iff_eq] at h
    rcases h with rfl | rfl
    · exact .true
    · exact .false
  · intro h
    cases h <;> rfl

theorem isDecimalText_iff (t : List Char) : isDecimalText t = true ↔ LiteralText .decimal t := by
  constructor
  · intro h
    unfold isDecimalText at h
    split at h
    · exact nomatch h
    · exact .zero
    · next c cs _ =>
      simp only [Bool.and_eq_true, decide_eq_true_eq, List.all_eq_true, char_le_iff, Char.reduceToNat] at h
      refine .decimal ((isDigit_toNat c).2 (by omega)) (fun hc => ?_) h.2
      subst hc
      simp at h
  · intro h
    cases h with
    | zero => rfl
    | @decimal d ds hd h0 hds =>
      unfold isDecimalText
      split
      · next h => exact nomatch h
      · rfl
      · next c cs _ heq =>
        cases heq
        simp only [Bool.and_eq_true, decide_eq_true_eq, List.all_eq_true, char_le_iff, Char.reduceToNat]
        rw [isDigit_toNat] at hd
        have : d.toNat ≠ 48 := fun h => h0 ((char_eq_iff _ _).2 h)
        exact ⟨by omega, hds⟩

theorem isBinaryText_iff (t : List Char) : isBinaryText t = true ↔ LiteralText .binary t := by
  constructor
  · intro h
    unfold isBinaryText at h
    split at h
    · next c ds hrev =>
      have ht : t = ds.reverse ++ [c] := by
        rw [← List.reverse_reverse t, hrev, List.reverse_cons]
      simp only [Bool.and_eq_true, Bool.or_eq_true, beq_iff_eq, Bool.not_eq_true', List.all_eq_true, List.isEmpty_eq_false_iff] at h
      rw [ht]
      exact .binary (by simpa using h.1.2) (fun d hd => h.2 d (List.mem_reverse.1 hd)) h.1.1
    · exact nomatch h
  · intro h
    cases h with
    | @binary ds b h1 h2 h3 =>
      unfold isBinaryText
      rw [List.reverse_append]
      simp only [List.reverse_singleton, List.singleton_append, Bool.and_eq_true, Bool.or_eq_true, beq_iff_eq,
        Bool.not_eq_true', List.all_eq_true, List.isEmpty_eq_false_iff]
      exact ⟨⟨h3, by simpa using h1⟩, fun d hd => h2 d (List.mem_reverse.1 hd)⟩

theorem isOctalText_iff (t : List Char) : isOctalText t = true ↔ LiteralText .octal t := by
  constructor
  · intro h
    unfold isOctalText at h
    split at h
    · next ds =>
      simp only [Bool.and_eq_true, Bool.not_eq_true', List.all_eq_true, List.isEmpty_eq_false_iff] at h
      exact .octal h.1 fun d hd => (octalDigit_iff d).2 (h.2 d hd)
    · exact nomatch h
  · intro h
    cases h with
    | @octal ds h1 h2 =>
      simp only [isOctalText, Bool.and_eq_true, Bool.not_eq_true', List.all_eq_true, List.isEmpty_eq_false_iff]
      exact ⟨h1, fun d hd => (octalDigit_iff d).1 (h2 d hd)⟩

theorem isHexText_iff (t : List Char) : isHexText t = true ↔ LiteralText .hexadecimal t := by
  constructor
  · intro h
    unfold isHexText at h
    split at h
    · next x ds =>
      simp only [Bool.and_eq_true, Bool.or_eq_true, beq_iff_eq, Bool.not_eq_true', List.all_eq_true, List.isEmpty_eq_false_iff] at h
      exact .hexadecimal h.1.1 h.1.2 fun d hd => (hexDigit_iff d).2 (h.2 d hd)
    · exact nomatch h
  · intro h
    cases h with
    | @hexadecimal x ds h1 h2 h3 =>
      simp only [isHexText, Bool.and_eq_true, Bool.or_eq_true, beq_iff_eq, Bool.not_eq_true', List.all_eq_true,
        List.isEmpty_eq_false_iff]
      exact ⟨⟨h1, h2⟩, fun d hd => (hexDigit_iff d).1 (h3 d hd)⟩

theorem isDigits_iff (t : List Char) : isDigits t = true ↔ t ≠ [] ∧ ∀ d ∈ t, d.isDigit = true := by
  simp [isDigits]

theorem isExponent_iff (t : List Char) : isExponent t = true ↔ ExponentText t := by
  constructor
  · intro h
    unfold isExponent at h
    split at h
    all_goals
      first
      | exact absurd h (by decide)
      | simp only [Bool.and_eq_true, Bool.or_eq_true, beq_iff_eq, isDigits_iff] at h
    · exact .mk (sign := ['+']) h.1 (by simp) h.2.1 h.2.2
    · exact .mk (sign := ['-']) h.1 (by simp) h.2.1 h.2.2
    · exact .mk (sign := []) h.1 (by simp) h.2.1 h.2.2
  · intro h
    cases h with
    | @mk e sign digits h1 h2 h3 h4 =>
      rcases h2 with rfl | rfl | rfl
      · unfold isExponent
        simp only [List.nil_append]
        split
        · next h => cases h; exact absurd (h4 '+' (by simp)) (by decide)
        · next h => cases h; exact absurd (h4 '-' (by simp)) (by decide)
        · next h => cases h; simp only [Bool.and_eq_true, Bool.or_eq_true, beq_iff_eq, isDigits_iff]; exact ⟨h1, h3, h4⟩
        · next h => exact nomatch h
      · simp only [List.cons_append, List.nil_append, isExponent, Bool.and_eq_true, Bool.or_eq_true, beq_iff_eq, isDigits_iff]
        exact ⟨h1, h3, h4⟩
      · simp only [List.cons_append, List.nil_append, isExponent, Bool.and_eq_true, Bool.or_eq_true, beq_iff_eq, isDigits_iff]
        exact ⟨h1, h3, h4⟩

theorem isOptExponent_iff (t : List Char) : isOptExponent t = true ↔ t = [] ∨ ExponentText t := by
  simp [isOptExponent, isExponent_iff]

theorem takeWhile_digits {ds rest : List Char} (h : ∀ d ∈ ds, d.isDigit = true) (hr : ∀ c cs, rest = c :: cs → c.isDigit = false) :
    (ds ++ rest).takeWhile Char.isDigit = ds ∧ (ds ++ rest).dropWhile Char.isDigit = rest := by
  constructor
  · rw [List.takeWhile_append_of_pos h]
    cases rest with
    | nil => simp
    | cons c cs => simp [hr c cs rfl]
  · rw [List.dropWhile_append_of_pos h]
    cases rest with
    | nil => simp
    | cons c cs => simp [hr c cs rfl]

theorem mem_takeWhile_digit {t : List Char} {d : Char} (h : d ∈ t.takeWhile Char.isDigit) : d.isDigit = true :=
  List.all_eq_true.1 List.all_takeWhile d h

theorem exponent_head {t : List Char} (h : t = [] ∨ ExponentText t) : ∀ c cs, t = c :: cs → c.isDigit = false := by
  rintro c cs rfl
  rcases h with h | h
  · exact nomatch h
  · cases h with
    | mk h1 => rcases h1 with rfl | rfl <;> decide

theorem isDoubleText_iff (t : List Char) : isDoubleText t = true ↔ LiteralText .double t := by
  constructor
  · intro h
    unfold isDoubleText at h
    have ht := (List.takeWhile_append_dropWhile (p := Char.isDigit) (l := t)).symm
    have hw : ∀ d ∈ t.takeWhile Char.isDigit, d.isDigit = true := fun d hd => mem_takeWhile_digit hd
    revert h ht
    simp only
    split
    · next rest hrest =>
      intro h ht
      simp only [Bool.and_eq_true, Bool.or_eq_true, Bool.not_eq_true', List.isEmpty_eq_false_iff, isOptExponent_iff] at h
      have hr := (List.takeWhile_append_dropWhile (p := Char.isDigit) (l := rest)).symm
      rw [ht, hrest, hr]
      exact .double h.1 hw (fun d hd => mem_takeWhile_digit hd) h.2
    · intro h ht
      simp only [Bool.and_eq_true, Bool.not_eq_true', List.isEmpty_eq_false_iff, isExponent_iff] at h
      rw [ht]
      exact .doubleWhole h.1 hw h.2
  · intro h
    unfold isDoubleText
    cases h with
    | @double whole fraction exponent h1 h2 h3 h4 =>
      obtain ⟨e1, e2⟩ := takeWhile_digits (rest := '.' :: (fraction ++ exponent)) h2 (by rintro c cs ⟨⟩; decide)
      rw [e1, e2]
      obtain ⟨e3, e4⟩ := takeWhile_digits h3 (exponent_head h4)
      simp only [e3, e4, Bool.and_eq_true, Bool.or_eq_true, Bool.not_eq_true', List.isEmpty_eq_false_iff, isOptExponent_iff]
      exact ⟨h1, h4⟩
    | @doubleWhole whole exponent h1 h2 h3 =>
      obtain ⟨e1, e2⟩ := takeWhile_digits h2 (exponent_head (Or.inr h3))
      rw [e1, e2]
      have h3' := (isExponent_iff _).2 h3
      cases h3 with
      | @mk e sign digits he hs hd hds =>
        simp only
        split
        · next h => cases h; rcases he with he | he <;> exact absurd he (by decide)
        · simp only [Bool.and_eq_true, Bool.not_eq_true', List.isEmpty_eq_false_iff]
          exact ⟨h1, h3'⟩

theorem isFloatText_iff (t : List Char) : isFloatText t = true ↔ LiteralText .float t := by
  constructor
  · intro h
    unfold isFloatText at h
    split at h
    · next c ds hrev =>
      have ht : t = ds.reverse ++ [c] := by
        rw [← List.reverse_reverse t, hrev, List.reverse_cons]
      simp only [Bool.and_eq_true, Bool.or_eq_true, beq_iff_eq, isDoubleText_iff] at h
      rw [ht]
      exact .float h.2 h.1
    · exact nomatch h
  · intro h
    cases h with
    | float h1 h2 =>
      unfold isFloatText
      rw [List.reverse_append]
      simp only [List.reverse_singleton, List.singleton_append, Bool.and_eq_true, Bool.or_eq_true, beq_iff_eq,
        List.reverse_reverse, isDoubleText_iff]
      exact ⟨h2, h1⟩

theorem isStringTail_char {c : List Char} (h : StringCharText c) (rest : List Char) :
    isStringTail (c ++ rest) = isStringTail rest := by
  cases h with
  | @plain c h1 h2 h3 h4 h5 =>
    have hl : isLineEnd c = false := by simp [isLineEnd, h3, h4, h5]
    simp only [List.singleton_append]
    rw [isStringTail.eq_def]
    split
    all_goals first
      | (next h => cases h; done)
      | (next h => cases h; exact absurd rfl h1)
      | (next h => cases h; exact absurd rfl h2)
      | (next h => cases h; simp [h1, h2, hl])
  | @escaped c h =>
    have : c ∈ ['"', '\\', 'r', 'n', 'f', 't'] := h
    simp only [List.mem_cons, List.not_mem_nil, or_false] at this
    rcases this with rfl | rfl | rfl | rfl | rfl | rfl <;> simp [isStringTail]
  | unicode h1 h2 h3 h4 =>
    rw [hexDigit_iff] at h1 h2 h3 h4
    simp [isStringTail, h1, h2, h3, h4]
  | hex h1 h2 =>
    rw [hexDigit_iff] at h1 h2
    simp [isStringTail, h1, h2]
  | octal h1 =>
    rw [octalDigit_iff] at h1
    simp [isStringTail, h1]

theorem isStringTail_iff (t : List Char) :
    isStringTail t = true ↔ ∃ cs : List (List Char), (∀ c ∈ cs, StringCharText c) ∧ t = cs.flatten ++ ['"'] := by
  constructor
  · fun_induction isStringTail t with
    | case1 => intro h; exact nomatch h
    | case2 => intro _; exact ⟨[], by simp, rfl⟩
    | case3 a b c d rest ih =>
      intro h
      simp only [Bool.and_eq_true] at h
      obtain ⟨cs, h1, rfl⟩ := ih h.2
      refine ⟨['\\', 'u', a, b, c, d] :: cs, ?_, by simp⟩
      simp only [List.mem_cons, forall_eq_or_imp]
      simp only [← hexDigit_iff] at h
      exact ⟨.unicode h.1.1.1.1 h.1.1.1.2 h.1.1.2 h.1.2, h1⟩
    | case4 a b rest ih =>
      intro h
      simp only [Bool.and_eq_true] at h
      obtain ⟨cs, h1, rfl⟩ := ih h.2
      refine ⟨['\\', 'x', a, b] :: cs, ?_, by simp⟩
      simp only [List.mem_cons, forall_eq_or_imp]
      simp only [← hexDigit_iff] at h
      exact ⟨.hex h.1.1 h.1.2, h1⟩
    | case5 a rest ih =>
      intro h
      simp only [Bool.and_eq_true] at h
      obtain ⟨cs, h1, rfl⟩ := ih h.2
      refine ⟨['\\', '0', a] :: cs, ?_, by simp⟩
      simp only [List.mem_cons, forall_eq_or_imp]
      simp only [← octalDigit_iff] at h
      exact ⟨.octal h.1, h1⟩
    | case6 c rest _ _ _ ih =>
      intro h
      simp only [Bool.and_eq_true, Bool.or_eq_true, beq_iff_eq] at h
      obtain ⟨cs, h1, rfl⟩ := ih h.2
      refine ⟨['\\', c] :: cs, ?_, by simp⟩
      simp only [List.mem_cons, forall_eq_or_imp]
      refine ⟨.escaped ?_, h1⟩
      show c ∈ ['"', '\\', 'r', 'n', 'f', 't']
      simp only [List.mem_cons, List.not_mem_nil, or_false]
      have := h.1
      tauto
    | case7 c rest _ _ _ _ _ ih =>
      intro h
      simp only [Bool.and_eq_true, bne_iff_ne, ne_eq, Bool.not_eq_true', isLineEnd, Bool.or_eq_false_iff, beq_eq_false_iff_ne] at h
      obtain ⟨cs, h1, rfl⟩ := ih h.2
      refine ⟨[c] :: cs, ?_, by simp⟩
      simp only [List.mem_cons, forall_eq_or_imp]
      exact ⟨.plain h.1.1.1 h.1.1.2 h.1.2.1.1 h.1.2.1.2 h.1.2.2, h1⟩
  · rintro ⟨cs, h, rfl⟩
    induction cs with
    | nil => rfl
    | cons c cs ih =>
      simp only [List.flatten_cons, List.append_assoc]
      rw [isStringTail_char (h c (by simp))]
      exact ih fun c hc => h c (by simp [hc])

theorem isStringText_iff (t : List Char) : isStringText t = true ↔ LiteralText .string t := by
  constructor
  · intro h
    unfold isStringText at h
    split at h
    · next rest =>
      obtain ⟨cs, h1, rfl⟩ := (isStringTail_iff _).1 h
      exact .string h1
    · exact nomatch h
  · intro h
    cases h with
    | @string cs h => exact (isStringTail_iff _).2 ⟨cs, h, rfl⟩

theorem endsAtClose_iff (t : List Char) : endsAtClose t = true ↔
    ∃ body, t = body ++ ['*', '/'] ∧ ∀ before after, t = before ++ '*' :: '/' :: after → after = [] := by
  fun_induction endsAtClose t with
  | case1 => simp
  | case2 rest =>
    constructor
    · intro h
      have : rest = [] := by simpa using h
      subst this
      refine ⟨[], rfl, fun before after h => ?_⟩
      have := congrArg List.length h
      simp at this
      exact List.length_eq_zero_iff.1 (by omega)
    · rintro ⟨body, -, h⟩
      rw [h [] rest rfl]
      rfl
  | case3 c rest hne ih =>
    rw [ih]
    constructor
    · rintro ⟨body, rfl, h⟩
      refine ⟨c :: body, rfl, fun before after hb => ?_⟩
      cases before with
      | nil =>
        simp only [List.nil_append, List.cons.injEq] at hb
        exact (hne _ hb.1 hb.2).elim
      | cons b before => exact h before after (List.cons.inj hb).2
    · rintro ⟨body, hb, h⟩
      cases body with
      | nil =>
        simp only [List.nil_append, List.cons.injEq] at hb
        exact (hne _ hb.1 hb.2).elim
      | cons b body =>
        refine ⟨body, (List.cons.inj hb).2, fun before after heq => h (c :: before) after (by rw [heq]; rfl)⟩

/-! ## What the rules can match -/

theorem recognise_sym (s : Punct) : recognise s.text = some (.token (.sym s)) := by cases s <;> rfl

theorem recognise_keyword (k : Keyword) : recognise k.text = some (.token (.keyword k)) := by cases k <;> rfl

theorem recognise_other {t : List Char} (hs : ∀ s : Punct, t ≠ s.text) (hk : ∀ k : Keyword, t ≠ k.text) :
    recognise t = otherRules.findSome? (· t) := by
  unfold recognise
  have h1 : allSyms.find? (·.text == t) = none := by
    rw [List.find?_eq_none]
    intro s _
    simpa using fun h => hs s h.symm
  have h2 : allKeywords.find? (·.text == t) = none := by
    rw [List.find?_eq_none]
    intro k _
    simpa using fun h => hk k h.symm
  rw [h1]
  simp only
  rw [h2]

theorem sym_head (s : Punct) : ∃ c cs, s.text = c :: cs ∧ isIdChar c = false ∧ c ≠ '@' ∧ c ≠ '"' ∧ isBlank c = false := by
  cases s <;> exact ⟨_, _, rfl, by decide⟩

theorem keyword_chars (k : Keyword) : isIdText k.text = true ∨
    k.text ∈ ["@deprecated".toList, "@index".toList, "@removed".toList] := by
  cases k <;> decide

/-- Texts made of letters, digits and underscores only. -/
def WordText (t : List Char) : Prop := t ≠ [] ∧ ∀ c ∈ t, isIdChar c = true

theorem isInvalidToken_iff (t : List Char) : isInvalidToken t = true ↔ WordText t := by simp [isInvalidToken, WordText]

theorem idText_word {t : List Char} (h : isIdText t = true) : WordText t := by
  unfold isIdText at h
  split at h
  · exact nomatch h
  · next c cs =>
    simp only [Bool.and_eq_true, List.all_eq_true] at h
    refine ⟨by simp, ?_⟩
    simp only [List.mem_cons, forall_eq_or_imp]
    exact ⟨by simp [isIdChar, h.1], h.2⟩

theorem hexDigit_idChar {c : Char} (h : HexDigit c) : isIdChar c = true := by
  rw [hexDigit_iff, isHexDig_toNat] at h; rw [isIdChar_toNat]; omega

theorem octalDigit_digit {c : Char} (h : OctalDigit c) : c.isDigit = true := by
  rw [octalDigit_iff, isOctDigit_toNat] at h; rw [isDigit_toNat]; omega

theorem literal_word {kind : TokenKind} {t : List Char} (h : LiteralText kind t) (h1 : kind ≠ .string) (h2 : kind ≠ .double)
    (h3 : kind ≠ .float) : WordText t := by
  cases h with
  | true => exact idText_word (by decide)
  | false => exact idText_word (by decide)
  | zero => exact ⟨by simp, by simp; decide⟩
  | decimal hd _ hds =>
    refine ⟨by simp, ?_⟩
    simp only [List.mem_cons, forall_eq_or_imp]
    exact ⟨isDigit_isIdChar hd, fun d h => isDigit_isIdChar (hds d h)⟩
  | binary hd hds hb =>
    refine ⟨by simp, fun c hc => ?_⟩
    rcases List.mem_append.1 hc with h | h
    · rcases hds c h with rfl | rfl <;> decide
    · rw [List.mem_singleton.1 h]
      rcases hb with rfl | rfl <;> decide
  | octal hd hds =>
    refine ⟨by simp, ?_⟩
    simp only [List.mem_cons, forall_eq_or_imp]
    exact ⟨by decide, fun d h => isDigit_isIdChar (octalDigit_digit (hds d h))⟩
  | hexadecimal hx hd hds =>
    refine ⟨by simp, ?_⟩
    simp only [List.mem_cons, forall_eq_or_imp]
    exact ⟨by decide, by rcases hx with rfl | rfl <;> decide, fun d h => hexDigit_idChar (hds d h)⟩
  | double => exact absurd rfl h2
  | doubleWhole => exact absurd rfl h2
  | float => exact absurd rfl h3
  | string => exact absurd rfl h1

/-- Everything a rule can match. -/
theorem recognise_cases {t : List Char} (h : recognise t ≠ none) :
    (∃ s : Punct, t = s.text) ∨ (∃ k : Keyword, t = k.text) ∨ (∃ c, t = [c] ∧ isBlank c = true) ∨ isDocComment t = true ∨
    isMarkdownComment t = true ∨ isBlockComment t = true ∨ isLineComment t = true ∨ isStringText t = true ∨
    isInvalidString t = true ∨ isDoubleText t = true ∨ isFloatText t = true ∨ WordText t := by
  by_cases hs : ∃ s : Punct, t = s.text
  · exact Or.inl hs
  by_cases hk : ∃ k : Keyword, t = k.text
  · exact Or.inr (Or.inl hk)
  rw [recognise_other (fun s h => hs ⟨s, h⟩) (fun k h => hk ⟨k, h⟩)] at h
  refine Or.inr (Or.inr ?_)
  by_contra hn
  simp only [not_or] at hn
  obtain ⟨n1, n2, n3, n4, n5, n6, n7, n8, n9, n10⟩ := hn
  have hsp : ¬ isSpaceText t = true := by
    intro h
    unfold isSpaceText at h
    split at h
    · exact n1 ⟨_, rfl, h⟩
    · exact nomatch h
  have hlit : ∀ kind, kind ≠ .string → kind ≠ .double → kind ≠ .float → ¬ LiteralText kind t :=
    fun kind h1 h2 h3 h => n10 (literal_word h h1 h2 h3)
  apply h
  simp only [otherRules, List.findSome?_cons, List.findSome?_nil, hiddenRule, literalRule, idRule]
  simp only [hsp, n2, n3, n4, n5, n6, n7, n8, n9, isBoolText_iff, hlit .bool (by simp) (by simp) (by simp),
    isBinaryText_iff, hlit .binary (by simp) (by simp) (by simp), isOctalText_iff, hlit .octal (by simp) (by simp) (by simp),
    isHexText_iff, hlit .hexadecimal (by simp) (by simp) (by simp), isDecimalText_iff,
    hlit .decimal (by simp) (by simp) (by simp), isInvalidToken_iff, n10, if_false, Bool.false_eq_true,
    show ¬ isIdText t = true from fun h => n10 (idText_word h), dif_neg, not_false_eq_true]

/-- Texts of at least two characters that no rule matches. -/
theorem not_recognised {t : List Char} (hlen : 2 ≤ t.length) (hsym : ∀ s : Punct, t ≠ s.text) (hkw : ∀ k : Keyword, t ≠ k.text)
    (hcom : ∀ r, t ≠ '/' :: '*' :: r) (hline : ∀ r, t ≠ '/' :: '/' :: r) (hquote : ∀ r, t ≠ '"' :: r)
    (hd : ¬ LiteralText .double t) (hf : ¬ LiteralText .float t) (hw : ¬ WordText t) : recognise t = none := by
  by_contra h
  rcases recognise_cases h with ⟨s, h⟩ | ⟨k, h⟩ | ⟨c, h, -⟩ | h | h | h | h | h | h | h | h | h
  · exact hsym s h
  · exact hkw k h
  · rw [h] at hlen; simp at hlen
  · unfold isDocComment at h; split at h
    · exact hcom _ rfl
    · exact nomatch h
  · unfold isMarkdownComment at h; split at h
    · exact hcom _ rfl
    · exact nomatch h
  · unfold isBlockComment at h; split at h
    · exact hcom _ rfl
    · exact nomatch h
  · unfold isLineComment at h; split at h
    · exact hline _ rfl
    · exact nomatch h
  · unfold isStringText at h; split at h
    · exact hquote _ rfl
    · exact nomatch h
  · unfold isInvalidString at h; split at h
    · exact hquote _ rfl
    · exact nomatch h
  · exact hd ((isDoubleText_iff t).1 h)
  · exact hf ((isFloatText_iff t).1 h)
  · exact hw h

/-! ## Nothing longer matches -/

theorem exponent_split {A w exp : List Char} {c : Char} {cs : List Char} (hA : ∀ x ∈ A, x.isDigit = true ∨ x = '.')
    (hexp : exp = [] ∨ ExponentText exp) (hc : isIdChar c = false) (hdot : c ≠ '.') (h : w ++ c :: cs = A ++ exp) :
    ∃ m e, w = m ++ [e] ∧ (e = 'e' ∨ e = 'E') ∧ ∀ x ∈ m, x.isDigit = true ∨ x = '.' := by
  have notA : c ∉ A := fun hm => by
    rcases hA c hm with h | h
    · rw [isDigit_isIdChar h] at hc; exact nomatch hc
    · exact hdot h
  have hE : ∀ {e : Char}, e = 'e' ∨ e = 'E' → isIdChar e = true := by rintro e (rfl | rfl) <;> decide
  rcases List.append_eq_append_iff.1 h with ⟨as, h1, h2⟩ | ⟨bs, h1, h2⟩
  · cases as with
    | nil =>
      simp only [List.nil_append] at h2
      rcases hexp with rfl | hexp
      · exact nomatch h2
      · cases hexp with
        | mk he => cases h2; rw [hE he] at hc; exact nomatch hc
    | cons a as =>
      cases h2
      exact absurd (by rw [h1]; simp) notA
  · rcases hexp with rfl | hexp
    · simp at h2
    cases hexp with
    | @mk e sign digits he hs hd hds =>
      cases bs with
      | nil => cases h2; rw [hE he] at hc; exact nomatch hc
      | cons b bs =>
        simp only [List.cons_append, List.cons.injEq] at h2
        obtain ⟨rfl, h2⟩ := h2
        cases bs with
        | nil => exact ⟨A, e, h1, he, hA⟩
        | cons b bs =>
          have : c ∈ digits := by
            have hlen : sign.length ≤ 1 := by rcases hs with rfl | rfl | rfl <;> simp
            have h3 : (sign ++ digits).drop sign.length = digits := by simp
            rw [h2] at h3
            rw [← h3]
            rcases hs with rfl | rfl | rfl <;> simp
          rw [isDigit_isIdChar (hds c this)] at hc
          exact nomatch hc

theorem double_split {t w : List Char} {c : Char} {cs : List Char} (ht : LiteralText .double t) (hc : isIdChar c = false)
    (hdot : c ≠ '.') (h : t = w ++ c :: cs) :
    ∃ m e, w = m ++ [e] ∧ (e = 'e' ∨ e = 'E') ∧ ∀ x ∈ m, x.isDigit = true ∨ x = '.' := by
  cases ht with
  | @double whole fraction exponent h1 h2 h3 h4 =>
    refine exponent_split (A := whole ++ '.' :: fraction) ?_ h4 hc hdot (by rw [← h]; simp)
    intro x hx
    simp only [List.mem_append, List.mem_cons] at hx
    rcases hx with hx | rfl | hx
    · exact Or.inl (h2 x hx)
    · exact Or.inr rfl
    · exact Or.inl (h3 x hx)
  | @doubleWhole whole exponent h1 h2 h3 =>
    exact exponent_split (A := whole) (fun x hx => Or.inl (h2 x hx)) (Or.inr h3) hc hdot h.symm

theorem float_split {t w : List Char} {c : Char} {cs : List Char} (ht : LiteralText .float t) (hc : isIdChar c = false)
    (hdot : c ≠ '.') (h : t = w ++ c :: cs) :
    ∃ m e, w = m ++ [e] ∧ (e = 'e' ∨ e = 'E') ∧ ∀ x ∈ m, x.isDigit = true ∨ x = '.' := by
  cases ht with
  | @float t f ht hf =>
    rcases List.eq_nil_or_concat cs with rfl | ⟨cs', l, rfl⟩
    · obtain ⟨-, h2⟩ := List.append_inj' h rfl
      cases h2
      rcases hf with rfl | rfl <;> exact absurd hc (by decide)
    · rw [List.concat_eq_append, ← List.cons_append, ← List.append_assoc] at h
      obtain ⟨h1, -⟩ := List.append_inj' h rfl
      exact double_split ht hc hdot h1

/-- Numbers as they are written. -/
def Numeral (t : List Char) : Prop := ∃ kind, kind ≠ .string ∧ kind ≠ .bool ∧ LiteralText kind t

theorem last_of_digits {ds : List Char} (h : ds ≠ []) (hd : ∀ d ∈ ds, d.isDigit = true) :
    ∃ init l, ds = init ++ [l] ∧ (l.isDigit = true ∨ l = '.') := by
  rcases List.eq_nil_or_concat ds with rfl | ⟨init, l, rfl⟩
  · exact absurd rfl h
  · exact ⟨init, l, by simp, Or.inl (hd l (by simp))⟩

theorem exponent_last {e : List Char} (h : ExponentText e) : ∃ init l, e = init ++ [l] ∧ (l.isDigit = true ∨ l = '.') := by
  cases h with
  | @mk e sign digits h1 h2 h3 h4 =>
    obtain ⟨init, l, rfl, h5⟩ := last_of_digits h3 h4
    exact ⟨e :: (sign ++ init), l, by simp, h5⟩

theorem double_last {t : List Char} (h : LiteralText .double t) :
    ∃ init l, t = init ++ [l] ∧ (l.isDigit = true ∨ l = '.') := by
  cases h with
  | @double whole fraction exponent h1 h2 h3 h4 =>
    rcases h4 with rfl | h4
    · by_cases hf : fraction = []
      · subst hf; exact ⟨whole, '.', by simp, Or.inr rfl⟩
      · obtain ⟨init, l, rfl, h5⟩ := last_of_digits hf h3
        exact ⟨whole ++ '.' :: init, l, by simp, h5⟩
    · obtain ⟨init, l, rfl, h5⟩ := exponent_last h4
      exact ⟨whole ++ '.' :: (fraction ++ init), l, by simp, h5⟩
  | @doubleWhole whole exponent h1 h2 h3 =>
    obtain ⟨init, l, rfl, h5⟩ := exponent_last h3
    exact ⟨whole ++ init, l, by simp, h5⟩

/-- No number is one without the digits of its exponent. -/
theorem numeral_complete {t : List Char} (h : Numeral t) :
    ¬ ∃ m e, t = m ++ [e] ∧ (e = 'e' ∨ e = 'E') ∧ ∀ x ∈ m, x.isDigit = true ∨ x = '.' := by
  rintro ⟨m, e, h1, h2, h3⟩
  have fin : (∃ init l, t = init ++ [l] ∧ l ≠ 'e' ∧ l ≠ 'E') → False := by
    rintro ⟨init, l, h4, h5, h6⟩
    rw [h4] at h1
    obtain ⟨-, h7⟩ := List.append_inj' h1 rfl
    cases h7
    rcases h2 with h | h
    · exact h5 h
    · exact h6 h
  have fin' : (∃ init l, t = init ++ [l] ∧ (l.isDigit = true ∨ l = '.')) → False := by
    rintro ⟨init, l, h4, h5⟩
    refine fin ⟨init, l, h4, ?_, ?_⟩ <;> (rintro rfl; exact absurd h5 (by decide))
  obtain ⟨kind, k1, k2, h⟩ := h
  cases h with
  | true => exact k2 rfl
  | false => exact k2 rfl
  | zero => exact fin ⟨[], '0', rfl, by decide, by decide⟩
  | decimal hd _ hds => exact fin' (last_of_digits (by simp) (by simpa using ⟨hd, hds⟩))
  | @binary ds b hd hds hb => exact fin ⟨ds, b, rfl, by rcases hb with rfl | rfl <;> decide, by rcases hb with rfl | rfl <;> decide⟩
  | octal hd hds =>
    exact fin' (last_of_digits (by simp) (by
      simp only [List.mem_cons, forall_eq_or_imp]
      exact ⟨by decide, fun d h => octalDigit_digit (hds d h)⟩))
  | @hexadecimal x ds hx hd hds =>
    have : x ∈ m := by
      cases m with
      | nil => simp at h1
      | cons a m =>
        cases m with
        | nil => simp at h1; exact absurd h1.2.2 hd
        | cons b m => simp at h1; simp [h1.2.1]
    rcases hx with rfl | rfl <;> rcases h3 _ this with h | h <;> exact absurd h (by decide)
  | double g1 g2 g3 g4 => exact fin' (double_last (.double g1 g2 g3 g4))
  | doubleWhole g1 g2 g3 => exact fin' (double_last (.doubleWhole g1 g2 g3))
  | @float t f h1 hf => exact fin ⟨t, f, rfl, by rcases hf with rfl | rfl <;> decide, by rcases hf with rfl | rfl <;> decide⟩
  | string => exact k1 rfl

/-- Numbers begin with a digit or a dot. -/
theorem numeral_head {t : List Char} (h : Numeral t) : ∃ c cs, t = c :: cs ∧ (c.isDigit = true ∨ c = '.') := by
  have dbl : ∀ {t}, LiteralText .double t → ∃ c cs, t = c :: cs ∧ (c.isDigit = true ∨ c = '.') := by
    intro t h
    cases h with
    | @double whole fraction exponent h1 h2 =>
      cases whole with
      | nil => exact ⟨_, _, rfl, Or.inr rfl⟩
      | cons c cs => exact ⟨c, _, rfl, Or.inl (h2 c (by simp))⟩
    | @doubleWhole whole exponent h1 h2 =>
      cases whole with
      | nil => exact absurd rfl h1
      | cons c cs => exact ⟨c, _, rfl, Or.inl (h2 c (by simp))⟩
  obtain ⟨kind, k1, k2, h⟩ := h
  cases h with
  | true => exact absurd rfl k2
  | false => exact absurd rfl k2
  | zero => exact ⟨_, _, rfl, Or.inl (by decide)⟩
  | decimal hd => exact ⟨_, _, rfl, Or.inl hd⟩
  | @binary ds b hd hds hb =>
    cases ds with
    | nil => exact absurd rfl hd
    | cons c cs => exact ⟨c, _, rfl, Or.inl (by rcases hds c (by simp) with rfl | rfl <;> decide)⟩
  | octal => exact ⟨_, _, rfl, Or.inl (by decide)⟩
  | hexadecimal => exact ⟨_, _, rfl, Or.inl (by decide)⟩
  | double h1 h2 h3 h4 => exact dbl (.double h1 h2 h3 h4)
  | doubleWhole h1 h2 h3 => exact dbl (.doubleWhole h1 h2 h3)
  | float h1 hf => obtain ⟨c, cs, rfl, h⟩ := dbl h1; exact ⟨c, _, rfl, h⟩
  | string => exact absurd rfl k1

theorem keyword_head (k : Keyword) : ∃ c cs, k.text = c :: cs ∧ (isIdStart c = true ∨ c = '@') := by
  cases k <;> exact ⟨_, _, rfl, by decide⟩

theorem numeral_longer {w : List Char} (h : Numeral w) {c : Char} (hc : isIdChar c = false) (hdot : c ≠ '.') (cs : List Char) :
    recognise (w ++ c :: cs) = none := by
  obtain ⟨x, xs, rfl, hx⟩ := numeral_head h
  have hx' : isIdChar x = true ∨ x = '.' := hx.imp isDigit_isIdChar id
  refine not_recognised (by simp; omega) ?_ ?_ ?_ ?_ ?_ (fun hd => numeral_complete h (double_split hd hc hdot rfl))
    (fun hd => numeral_complete h (float_split hd hc hdot rfl)) (fun hw => ?_)
  · intro s heq
    rcases hx' with hx' | rfl
    · obtain ⟨y, ys, h1, h2, -⟩ := sym_head s
      rw [h1] at heq
      cases heq
      rw [hx'] at h2; exact nomatch h2
    · cases s <;> simp [Punct.text] at heq
  · intro k heq
    obtain ⟨y, ys, h1, h2⟩ := keyword_head k
    rw [h1] at heq
    cases heq
    rcases hx with hx | rfl
    · rcases h2 with h2 | rfl
      · rw [isDigit_not_start hx] at h2; exact nomatch h2
      · exact absurd hx (by decide)
    · exact absurd h2 (by decide)
  · intro r heq; cases (List.cons.inj heq).1; rcases hx with hx | hx <;> exact absurd hx (by decide)
  · intro r heq; cases (List.cons.inj heq).1; rcases hx with hx | hx <;> exact absurd hx (by decide)
  · intro r heq; cases (List.cons.inj heq).1; rcases hx with hx | hx <;> exact absurd hx (by decide)
  · have := hw.2 c (by simp)
    rw [hc] at this; exact nomatch this

/-- Words that begin with a letter. -/
theorem word_longer {w : List Char} (h : isIdText w = true) {c : Char} (hc : isIdChar c = false) (cs : List Char) :
    recognise (w ++ c :: cs) = none := by
  have hword := idText_word h
  unfold isIdText at h
  split at h
  · exact nomatch h
  next x xs =>
  simp only [Bool.and_eq_true] at h
  have hx : isIdChar x = true := hword.2 x (by simp)
  have num : ∀ {t : List Char}, Numeral t → t ≠ x :: xs ++ c :: cs := by
    rintro t ht rfl
    obtain ⟨y, ys, h1, h2⟩ := numeral_head ht
    cases h1
    rcases h2 with h2 | rfl
    · rw [isDigit_not_start h2] at h; exact nomatch h.1
    · exact absurd h.1 (by decide)
  refine not_recognised (by simp; omega) ?_ ?_ ?_ ?_ ?_ (fun hd => num ⟨.double, by simp, by simp, hd⟩ rfl)
    (fun hd => num ⟨.float, by simp, by simp, hd⟩ rfl) (fun hw => ?_)
  · intro s heq
    obtain ⟨y, ys, h1, h2, -⟩ := sym_head s
    rw [h1] at heq
    cases heq
    rw [hx] at h2; exact nomatch h2
  · intro k heq
    rcases keyword_chars k with hk | hk
    · have := (idText_word hk).2 c (by rw [← heq]; simp)
      rw [hc] at this; exact nomatch this
    · rw [← heq] at hk
      simp only [List.mem_cons, List.not_mem_nil, or_false] at hk
      rcases hk with hk | hk | hk <;> (cases (List.cons.inj hk).1; exact absurd hx (by decide))
  · intro r heq; cases (List.cons.inj heq).1; exact absurd hx (by decide)
  · intro r heq; cases (List.cons.inj heq).1; exact absurd hx (by decide)
  · intro r heq; cases (List.cons.inj heq).1; exact absurd hx (by decide)
  · have := hw.2 c (by simp)
    rw [hc] at this; exact nomatch this

end Verif
