import Verif.FrontEnd
import Mathlib.Data.List.TakeWhile

/-!
# C69: what the syntax tree keeps of a schema; C70: which declarations reach the generator

The relations `Same…` say when two pieces of a schema mean the same, part by part.  They are written from the grammar: each part of
an alternative is listed, and the parts that are not compared are named in the comment.
-/

namespace Verif

/-! ## Expressions -/

theorem ident_text_inj {a b : Ident} (h : a.text = b.text) : a = b := by
  cases a
  cases b
  simp only [Ident.mk.injEq] at *
  exact h

/-- A tree that can be read off the syntax tree again. -/
def unvisit : AExpr → Option CExpr
  | .leaf type text =>
    match type with
    | .binaryLiteral => some (.literal .binary text)
    | .octalLiteral => some (.literal .octal text)
    | .decimalLiteral => some (.literal .decimal text)
    | .hexLiteral => some (.literal .hexadecimal text)
    | .boolLiteral => some (.literal .bool text)
    | .stringLiteral => some (.literal .string text)
    | .floatLiteral => some (.literal .float text)
    | .doubleLiteral => some (.literal .double text)
    | .index => some .index
    | .id => if h : isIdText text = true then some (.identifier ⟨text, h⟩) else none
    | _ => none
  | .one type _ a =>
    match type, unvisit a with
    | .lparen, some a => some (.parenthesized a)
    | .rparen, some a => some (.functionCall a)
    | .lengthof, some a => some (.lengthof a)
    | .valueof, some a => some (.valueof a)
    | .numbits, some a => some (.numbits a)
    | .plus, some a => some (.unary .plus a)
    | .minus, some a => some (.unary .minus a)
    | .bang, some a => some (.unary .bang a)
    | .tilde, some a => some (.unary .tilde a)
    | _, _ => none
  | .two type _ a b =>
    match type, unvisit a, unvisit b, b with
    | .dot, some a, _, .leaf .unevaluatable text => if h : isIdText text = true then some (.dot a ⟨text, h⟩) else none
    | .lbracket, some a, some b, _ => some (.array a b)
    | .isset, some a, some b, _ => some (.isSet a b)
    | .multiply, some a, some b, _ => some (.multiplicative .multiply a b)
    | .divide, some a, some b, _ => some (.multiplicative .divide a b)
    | .modulo, some a, some b, _ => some (.multiplicative .modulo a b)
    | .plus, some a, some b, _ => some (.additive .plus a b)
    | .minus, some a, some b, _ => some (.additive .minus a b)
    | .lshift, some a, some b, _ => some (.shift .left a b)
    | .rshift, some a, some b, _ => some (.shift .right a b)
    | .lt, some a, some b, _ => some (.relational .lt a b)
    | .le, some a, some b, _ => some (.relational .le a b)
    | .gt, some a, some b, _ => some (.relational .gt a b)
    | .ge, some a, some b, _ => some (.relational .ge a b)
    | .eq, some a, some b, _ => some (.equality .eq a b)
    | .ne, some a, some b, _ => some (.equality .ne a b)
    | .and, some a, some b, _ => some (.bitwiseAnd a b)
    | .xor, some a, some b, _ => some (.bitwiseXor a b)
    | .or, some a, some b, _ => some (.bitwiseOr a b)
    | .logicalAnd, some a, some b, _ => some (.logicalAnd a b)
    | .logicalOr, some a, some b, _ => some (.logicalOr a b)
    | _, _, _, _ => none
  | .three _ _ a b c =>
    match unvisit a, unvisit b, unvisit c with
    | some a, some b, some c => some (.ternary a b c)
    | _, _, _ => none

theorem unvisit_visit (e : CExpr) : unvisit (visitExpr e) = some e := by
  induction e with
  | parenthesized e ih => simp [visitExpr, visitOne, unvisit, ih]
  | functionCall e ih => simp [visitExpr, visitOne, unvisit, ih]
  | array a b iha ihb => simp [visitExpr, visitTwo, unvisit, iha, ihb]
  | dot e f ih => simp [visitExpr, visitTwo, unvisit, ih, f.ok]
  | isSet a b iha ihb => simp [visitExpr, visitTwo, unvisit, iha, ihb]
  | lengthof e ih => simp [visitExpr, visitOne, unvisit, ih]
  | valueof e ih => simp [visitExpr, visitOne, unvisit, ih]
  | numbits e ih => simp [visitExpr, visitOne, unvisit, ih]
  | unary op e ih => cases op <;> simp [visitExpr, visitOne, unvisit, ih, UnaryOp.tok]
  | multiplicative op a b iha ihb => cases op <;> simp [visitExpr, visitTwo, unvisit, iha, ihb, MulOp.tok]
  | additive op a b iha ihb => cases op <;> simp [visitExpr, visitTwo, unvisit, iha, ihb, AddOp.tok]
  | shift op a b iha ihb => cases op <;> simp [visitExpr, unvisit, iha, ihb, ShiftOp.tok]
  | relational op a b iha ihb => cases op <;> simp [visitExpr, visitTwo, unvisit, iha, ihb, RelOp.tok]
  | equality op a b iha ihb => cases op <;> simp [visitExpr, visitTwo, unvisit, iha, ihb, EqOp.tok]
  | bitwiseAnd a b iha ihb => simp [visitExpr, visitTwo, unvisit, iha, ihb]
  | bitwiseXor a b iha ihb => simp [visitExpr, visitTwo, unvisit, iha, ihb]
  | bitwiseOr a b iha ihb => simp [visitExpr, visitTwo, unvisit, iha, ihb]
  | logicalAnd a b iha ihb => simp [visitExpr, visitTwo, unvisit, iha, ihb]
  | logicalOr a b iha ihb => simp [visitExpr, visitTwo, unvisit, iha, ihb]
  | ternary a b c iha ihb ihc => simp [visitExpr, unvisit, iha, ihb, ihc]
  | literal kind text => cases kind <;> rfl
  | index => rfl
  | identifier name => simp [visitExpr, unvisit, name.ok]

/-- **C69**, expressions: two expressions become the same syntax tree only if they are the same, token by token. -/
theorem C69_expression (a b : CExpr) : visitExpr a = visitExpr b ↔ a = b := by
  constructor
  · intro h
    have := congrArg unvisit h
    rw [unvisit_visit, unvisit_visit] at this
    exact Option.some.inj this
  · exact fun h => h ▸ rfl

/-- The name of an identifier expression. -/
def ident (s : String) (h : isIdText s.toList = true) : Ident := ⟨s.toList, h⟩

example : visitExpr (.shift .right (.identifier (ident "a" rfl)) (.literal .decimal "2".toList)) ≠
    visitExpr (.relational .gt (.identifier (ident "a" rfl)) (.literal .decimal "2".toList)) := by
  rw [Ne, C69_expression]
  simp

/-! ## Types -/

/-- What a builtin type is: bits with or without sign, or one of the other types. -/
inductive Meaning where
  | unsignedBits (n : Nat)
  | signedBits (n : Nat)
  | other (w : BuiltinWord)
deriving DecidableEq

/-- The number a decimal literal writes. -/
def decimalValue : List Char → Nat
  | [] => 0
  | c :: cs => (c.toNat - 48) * 10 ^ cs.length + decimalValue cs

/-- The meaning of a builtin type, from the language overview: `bit:8` is `uint8`, `int:8` is `int8`, and so on. -/
def CBuiltin.meaning : CBuiltin → Meaning
  | .word .int8 => .signedBits 8 | .word .int16 => .signedBits 16
  | .word .int32 => .signedBits 32 | .word .int64 => .signedBits 64
  | .word .uint8 => .unsignedBits 8 | .word .uint16 => .unsignedBits 16
  | .word .uint32 => .unsignedBits 32 | .word .uint64 => .unsignedBits 64
  | .word w => .other w
  | .fixed true width => .signedBits (decimalValue width.text)
  | .fixed false width => .unsignedBits (decimalValue width.text)

/-- The widths that the language allows. -/
def CBuiltin.Legal : CBuiltin → Prop
  | .word _ => True
  | .fixed _ width => 1 ≤ decimalValue width.text ∧ decimalValue width.text ≤ 64

theorem digitsValue_acc (text : List Char) (acc : Nat) :
    text.foldl (fun v c => 10 * v + (c.toNat - '0'.toNat)) acc = acc * 10 ^ text.length + decimalValue text := by
  induction text generalizing acc with
  | nil => simp [decimalValue]
  | cons c cs ih =>
    rw [List.foldl_cons, ih, decimalValue, List.length_cons, Nat.pow_succ]
    have : '0'.toNat = 48 := rfl
    rw [this, Nat.add_mul]
    have : 10 * acc * 10 ^ cs.length = acc * (10 ^ cs.length * 10) := by
      rw [Nat.mul_comm 10 acc, Nat.mul_assoc, Nat.mul_comm 10]
    omega

theorem digitsValue_eq (text : List Char) : digitsValue text = decimalValue text := by
  rw [digitsValue, digitsValue_acc]
  simp

theorem decimalText_digits {text : List Char} (h : isDecimalText text = true) :
    text ≠ [] ∧ text.all Char.isDigit = true := by
  match text with
  | [] => cases h
  | [c] =>
    refine ⟨by simp, ?_⟩
    by_cases hc : c = '0'
    · subst hc; rfl
    · have h' : ('1' ≤ c && c ≤ '9') = true := by
        unfold isDecimalText at h
        split at h
        · cases h
        · rename_i heq; exact absurd (List.cons.inj heq).1 hc
        · rename_i heq
          cases heq
          simp only [Bool.and_eq_true] at h ⊢
          exact h.1
      simp only [List.all_cons, List.all_nil, Bool.and_true]
      simp only [Bool.and_eq_true, decide_eq_true_eq] at h'
      simp only [Char.isDigit, Bool.and_eq_true, decide_eq_true_eq, ge_iff_le]
      exact ⟨Nat.le_trans (by decide) h'.1, h'.2⟩
  | c :: d :: cs =>
    refine ⟨by simp, ?_⟩
    unfold isDecimalText at h
    split at h
    · cases h
    · rename_i heq; simp at heq
    · rename_i heq
      cases heq
      simp only [Bool.and_eq_true, decide_eq_true_eq] at h
      rw [List.all_cons, Bool.and_eq_true]
      refine ⟨?_, h.2⟩
      simp only [Char.isDigit, Bool.and_eq_true, decide_eq_true_eq, ge_iff_le]
      exact ⟨Nat.le_trans (by decide) h.1.1, h.1.2⟩

theorem parseUint8_decimal {text : List Char} (h : isDecimalText text = true) (hle : decimalValue text ≤ 255) :
    parseUint8 text = (decimalValue text, true) := by
  have hd := decimalText_digits h
  simp only [parseUint8, digitsValue_eq]
  rw [if_pos hd, if_pos hle]

theorem fixed_text_span (signed : Bool) (width : DecimalText) :
    (CBuiltin.text (.fixed signed width)).takeWhile (· ≠ ':') = (if signed then "int".toList else "bit".toList) ∧
    (CBuiltin.text (.fixed signed width)).dropWhile (· ≠ ':') = ':' :: width.text := by
  cases signed <;> constructor <;> rfl

/-- What the visitor makes of a bit field. -/
theorem visitBuiltin_fixed (signed : Bool) (width : DecimalText) (hle : decimalValue width.text ≤ 255) :
    visitBuiltinText (CBuiltin.text (.fixed signed width)) =
      let n := decimalValue width.text
      if n = 8 ∨ n = 16 ∨ n = 32 ∨ n = 64 then
        .mk true [] ((if signed then "int".toList else "uint".toList) ++ Nat.toDigits 10 n) 0 [] [] none
      else .mk true [] (if signed then "int".toList else "bit".toList) n [] [] none := by
  obtain ⟨h1, h2⟩ := fixed_text_span signed width
  simp only [visitBuiltinText, h1, h2, parseUint8_decimal width.ok hle]
  cases signed <;> simp

theorem word_no_colon (w : BuiltinWord) : visitBuiltinText w.text = .mk true [] w.text 0 [] [] none := by
  cases w <;> rfl

theorem word_text_inj {a b : BuiltinWord} : a.text = b.text ↔ a = b := by
  cases a <;> cases b <;> decide

/-- The canonical builtin type of a meaning. -/
def Meaning.ref : Meaning → ATypeRef
  | .unsignedBits n =>
    if n = 8 ∨ n = 16 ∨ n = 32 ∨ n = 64 then .mk true [] ("uint".toList ++ Nat.toDigits 10 n) 0 [] [] none
    else .mk true [] "bit".toList n [] [] none
  | .signedBits n =>
    if n = 8 ∨ n = 16 ∨ n = 32 ∨ n = 64 then .mk true [] ("int".toList ++ Nat.toDigits 10 n) 0 [] [] none
    else .mk true [] "int".toList n [] [] none
  | .other w => .mk true [] w.text 0 [] [] none

theorem visitBuiltin_ref (b : CBuiltin) (h : b.Legal) : visitBuiltinText b.text = b.meaning.ref := by
  cases b with
  | word w => cases w <;> rfl
  | fixed signed width =>
    have := visitBuiltin_fixed signed width (by have := h.2; omega)
    rw [this]
    cases signed <;> rfl

/-- The words that mean something other than bits. -/
def BuiltinWord.plain : BuiltinWord → Bool
  | .int8 | .int16 | .int32 | .int64 | .uint8 | .uint16 | .uint32 | .uint64 => false
  | _ => true

theorem meaning_word (w : BuiltinWord) : w.plain = true → CBuiltin.meaning (.word w) = .other w := by
  cases w <;> intro h <;> first | rfl | cases h

theorem meaning_cases (b : CBuiltin) (h : b.Legal) :
    (∃ n, b.meaning = .unsignedBits n ∧ 1 ≤ n ∧ n ≤ 64) ∨ (∃ n, b.meaning = .signedBits n ∧ 1 ≤ n ∧ n ≤ 64) ∨
    (∃ w : BuiltinWord, b.meaning = .other w ∧ w.plain = true) := by
  cases b with
  | word w =>
    cases w <;> first
      | exact .inr (.inr ⟨_, rfl, rfl⟩)
      | exact .inl ⟨_, rfl, by decide, by decide⟩
      | exact .inr (.inl ⟨_, rfl, by decide, by decide⟩)
  | fixed signed width =>
    cases signed
    · exact .inl ⟨_, rfl, h⟩
    · exact .inr (.inl ⟨_, rfl, h⟩)

/-- The meaning a reference to a builtin type was made from. -/
def ATypeRef.meaning? : ATypeRef → Option Meaning
  | .mk _ _ name bits _ _ _ =>
    if bits = 0 then
      if name = "int8".toList then some (.signedBits 8) else if name = "int16".toList then some (.signedBits 16)
      else if name = "int32".toList then some (.signedBits 32) else if name = "int64".toList then some (.signedBits 64)
      else if name = "uint8".toList then some (.unsignedBits 8) else if name = "uint16".toList then some (.unsignedBits 16)
      else if name = "uint32".toList then some (.unsignedBits 32) else if name = "uint64".toList then some (.unsignedBits 64)
      else ([BuiltinWord.varint, .varint16, .varint32, .varint64, .varsize, .varuint, .varuint16, .varuint32, .varuint64,
        .bit, .int, .bool, .string, .float16, .float32, .float64, .extern, .bytes].find? fun w => w.text = name).map .other
    else if name = "bit".toList then some (.unsignedBits bits)
    else some (.signedBits bits)

theorem ref_unsigned : ∀ n : Fin 65, 1 ≤ n.val → (Meaning.unsignedBits n.val).ref.meaning? = some (.unsignedBits n.val) := by
  decide +kernel

theorem ref_signed : ∀ n : Fin 65, 1 ≤ n.val → (Meaning.signedBits n.val).ref.meaning? = some (.signedBits n.val) := by
  decide +kernel

theorem ref_word : ∀ w : BuiltinWord, w.plain = true → (Meaning.other w).ref.meaning? = some (.other w) := by
  intro w
  cases w <;> decide

theorem ref_meaning (b : CBuiltin) (h : b.Legal) : b.meaning.ref.meaning? = some b.meaning := by
  rcases meaning_cases b h with ⟨n, hb, h1, h2⟩ | ⟨n, hb, h1, h2⟩ | ⟨w, hb, h1⟩
  · rw [hb]
    exact ref_unsigned ⟨n, by omega⟩ h1
  · rw [hb]
    exact ref_signed ⟨n, by omega⟩ h1
  · rw [hb]
    exact ref_word w h1

/-- Builtin types with the same meaning, and only those, become the same. -/
theorem visitBuiltin_same (a b : CBuiltin) (ha : a.Legal) (hb : b.Legal) :
    visitBuiltinText a.text = visitBuiltinText b.text ↔ a.meaning = b.meaning := by
  rw [visitBuiltin_ref a ha, visitBuiltin_ref b hb]
  constructor
  · intro h
    have := congrArg ATypeRef.meaning? h
    rw [ref_meaning a ha, ref_meaning b hb] at this
    exact Option.some.inj this
  · exact fun h => h ▸ rfl

theorem visitBuiltin_builtin (text : List Char) : ∃ n bits, visitBuiltinText text = .mk true [] n bits [] [] none := by
  unfold visitBuiltinText
  split
  · exact ⟨_, _, rfl⟩
  · dsimp only
    split_ifs <;> exact ⟨_, _, rfl⟩

/-! ### Names -/

theorem idChar_no_dot {c : Char} (h : isIdChar c = true) : c ≠ '.' := by
  rintro rfl
  revert h
  decide

theorem idStart_no_dot {c : Char} (h : isIdStart c = true) : c ≠ '.' := by
  rintro rfl
  revert h
  decide

theorem ident_no_dot (i : Ident) : ∀ c ∈ i.text, c ≠ '.' := by
  obtain ⟨text, ok⟩ := i
  cases text with
  | nil => simp
  | cons c cs =>
    simp only [isIdText, Bool.and_eq_true, List.all_eq_true] at ok
    intro d hd
    rcases List.mem_cons.1 hd with rfl | hd
    · exact idStart_no_dot ok.1
    · exact idChar_no_dot (ok.2 d hd)

theorem ident_ne_nil (i : Ident) : i.text ≠ [] := by
  obtain ⟨text, ok⟩ := i
  rintro rfl
  cases ok

/-- The text before the first dot. -/
theorem takeWhile_ident (i : Ident) (rest : List Char) :
    (i.text ++ '.' :: rest).takeWhile (· ≠ '.') = i.text ∧ (i.text ++ '.' :: rest).dropWhile (· ≠ '.') = '.' :: rest := by
  have h := ident_no_dot i
  constructor
  · rw [List.takeWhile_append_of_pos (by simpa using h)]
    simp
  · rw [List.dropWhile_append_of_pos (by simpa using h)]
    simp

theorem takeWhile_ident_nil (i : Ident) :
    i.text.takeWhile (· ≠ '.') = i.text ∧ i.text.dropWhile (· ≠ '.') = [] := by
  have h := ident_no_dot i
  constructor
  · rw [List.takeWhile_eq_self_iff]
    simpa using h
  · rw [List.dropWhile_eq_nil_iff]
    simpa using h

/-- A qualified name can be read off its text. -/
theorem qualifiedText_inj {a b : Ident} {as bs : List Ident} (h : qualifiedText a as = qualifiedText b bs) :
    a = b ∧ as = bs := by
  induction as generalizing a b bs with
  | nil =>
    cases bs with
    | nil => exact ⟨ident_text_inj h, rfl⟩
    | cons c cs =>
      have := congrArg (List.dropWhile (· ≠ '.')) h
      simp only [qualifiedText] at this
      rw [(takeWhile_ident_nil a).2, (takeWhile_ident b _).2] at this
      cases this
  | cons x xs ih =>
    cases bs with
    | nil =>
      have := congrArg (List.dropWhile (· ≠ '.')) h
      simp only [qualifiedText] at this
      rw [(takeWhile_ident_nil b).2, (takeWhile_ident a _).2] at this
      cases this
    | cons c cs =>
      have h1 := congrArg (List.takeWhile (· ≠ '.')) h
      have h2 := congrArg (List.dropWhile (· ≠ '.')) h
      simp only [qualifiedText] at h1 h2
      rw [(takeWhile_ident a _).1, (takeWhile_ident b _).1] at h1
      rw [(takeWhile_ident a _).2, (takeWhile_ident b _).2] at h2
      obtain ⟨rfl, rfl⟩ := ih (List.cons.inj h2).2
      exact ⟨ident_text_inj h1, rfl⟩

/-- Where the last dot of a text is. -/
theorem splitName_cases (text : List Char) :
    ((∀ c ∈ text, c ≠ '.') ∧ splitName text = ([], text)) ∨
    (text = (splitName text).1 ++ '.' :: (splitName text).2) := by
  by_cases h : text.reverse.dropWhile (· ≠ '.') = []
  · left
    refine ⟨?_, ?_⟩
    · rw [List.dropWhile_eq_nil_iff] at h
      intro c hc
      have := h c (List.mem_reverse.2 hc)
      simpa using this
    · unfold splitName
      simp only [h]
  · right
    obtain ⟨d, before, hd⟩ := List.exists_cons_of_ne_nil h
    have hdot : d = '.' := by
      have h1 := List.head_dropWhile_not (p := (· ≠ '.')) (l := text.reverse) (w := h)
      have h2 : (text.reverse.dropWhile (· ≠ '.')).head h = d := by
        simp only [hd, List.head_cons]
      rw [h2] at h1
      simpa using h1
    have hs : splitName text = (before.reverse, (text.reverse.takeWhile (· ≠ '.')).reverse) := by
      unfold splitName
      simp only [hd]
    have ht := List.takeWhile_append_dropWhile (p := (· ≠ '.')) (l := text.reverse)
    rw [hd, hdot] at ht
    have := congrArg List.reverse ht
    rw [List.reverse_reverse] at this
    rw [hs]
    conv => lhs; rw [← this]
    simp

theorem qualified_not_dot_first (a : Ident) (as : List Ident) : ∀ rest, qualifiedText a as ≠ '.' :: rest := by
  intro rest h
  obtain ⟨c, cs, hc⟩ := List.exists_cons_of_ne_nil (ident_ne_nil a)
  have hnd := ident_no_dot a c (by simp [hc])
  cases as with
  | nil =>
    simp only [qualifiedText, hc] at h
    exact hnd (List.cons.inj h).1
  | cons x xs =>
    simp only [qualifiedText, hc, List.cons_append] at h
    exact hnd (List.cons.inj h).1

theorem splitName_inj {a b : Ident} {as bs : List Ident}
    (h : splitName (qualifiedText a as) = splitName (qualifiedText b bs)) : a = b ∧ as = bs := by
  refine qualifiedText_inj ?_
  have ha := splitName_cases (qualifiedText a as)
  have hb := splitName_cases (qualifiedText b bs)
  have no : ∀ (x : Ident) (xs : List Ident) (y : Ident) (ys : List Ident),
      splitName (qualifiedText x xs) = ([], qualifiedText x xs) →
      qualifiedText y ys = (splitName (qualifiedText y ys)).1 ++ '.' :: (splitName (qualifiedText y ys)).2 →
      splitName (qualifiedText x xs) = splitName (qualifiedText y ys) → False := by
    intro x xs y ys h1 h2 h3
    rw [← h3, h1] at h2
    exact qualified_not_dot_first y ys _ h2
  rcases ha with ⟨-, ha⟩ | ha
  · rcases hb with ⟨-, hb⟩ | hb
    · rw [ha, hb] at h
      exact (Prod.mk.inj h).2
    · exact (no a as b bs ha hb h).elim
  · rcases hb with ⟨-, hb⟩ | hb
    · exact (no b bs a as hb ha h.symm).elim
    · rw [ha, hb, h]

/-! ### References -/

mutual
/-- Two type references mean the same: builtin types with the same meaning, or the same name with arguments that mean the
same. -/
def SameType : CTypeRef → CTypeRef → Prop
  | .builtin a, .builtin b => a.meaning = b.meaning
  | .named a as targs, .named b bs targs' => a = b ∧ as = bs ∧ SameTypes targs targs'
  | _, _ => False

def SameTypes : List CTypeRef → List CTypeRef → Prop
  | [], [] => True
  | t :: ts, u :: us => SameType t u ∧ SameTypes ts us
  | _, _ => False
end

mutual
/-- All bit fields in a type reference have a width that the language allows. -/
def LegalType : CTypeRef → Prop
  | .builtin b => b.Legal
  | .named _ _ targs => LegalTypes targs

def LegalTypes : List CTypeRef → Prop
  | [] => True
  | t :: ts => LegalType t ∧ LegalTypes ts
end

mutual
theorem visitTypeRef_same (a b : CTypeRef) (ha : LegalType a) (hb : LegalType b) :
    visitTypeRef a = visitTypeRef b ↔ SameType a b := by
  match a, b with
  | .builtin a, .builtin b => simpa only [visitTypeRef, SameType] using visitBuiltin_same a b ha hb
  | .builtin a, .named b bs us =>
    simp only [visitTypeRef, SameType, iff_false]
    obtain ⟨n, bits, h⟩ := visitBuiltin_builtin a.text
    rw [h]
    intro h
    cases h
  | .named a as ts, .builtin b =>
    simp only [visitTypeRef, SameType, iff_false]
    obtain ⟨n, bits, h⟩ := visitBuiltin_builtin b.text
    rw [h]
    intro h
    cases h
  | .named a as ts, .named b bs us =>
    have ih := visitTypeRefs_same ts us (by simpa only [LegalType] using ha) (by simpa only [LegalType] using hb)
    simp only [visitTypeRef, SameType, ATypeRef.mk.injEq, true_and, and_true, ih]
    constructor
    · rintro ⟨h1, h2, h3⟩
      obtain ⟨rfl, rfl⟩ := splitName_inj (Prod.ext h1 h2)
      exact ⟨rfl, rfl, h3⟩
    · rintro ⟨rfl, rfl, h3⟩
      exact ⟨rfl, rfl, h3⟩

theorem visitTypeRefs_same (as bs : List CTypeRef) (ha : LegalTypes as) (hb : LegalTypes bs) :
    visitTypeRefs as = visitTypeRefs bs ↔ SameTypes as bs := by
  match as, bs with
  | [], [] => simp [visitTypeRefs, SameTypes]
  | [], b :: bs => simp [visitTypeRefs, SameTypes]
  | a :: as, [] => simp [visitTypeRefs, SameTypes]
  | a :: as, b :: bs =>
    simp only [visitTypeRefs, SameTypes, List.cons.injEq]
    simp only [LegalTypes] at ha hb
    rw [visitTypeRef_same a b ha.1 hb.1, visitTypeRefs_same as bs ha.2 hb.2]
end

/-- The expression a type argument stands for (`explicit` is not compared: it only says that there is no default). -/
def CTypeArg.expr : CTypeArg → CExpr
  | .explicit name => .identifier name
  | .expression e => e

/-- The type arguments of an instantiation. -/
def CArgs.list : CArgs → List CTypeArg
  | .typeArgs first rest => first :: rest
  | _ => []

/-- The dynamic length of an instantiation. -/
def CArgs.length : CArgs → Option CExpr
  | .dynamicLength e => some e
  | _ => Option.none

/-- Two types of fields mean the same. -/
def SameInst (a b : CTypeInst) : Prop :=
  SameType a.type b.type ∧ a.args.list.map CTypeArg.expr = b.args.list.map CTypeArg.expr ∧ a.args.length = b.args.length

theorem visitTypeArg_expr (a : CTypeArg) : visitTypeArg a = visitExpr a.expr := by
  cases a <;> rfl

theorem map_visit_inj {as bs : List CExpr} : as.map visitExpr = bs.map visitExpr ↔ as = bs := by
  constructor
  · intro h
    exact List.map_injective_iff.2 (fun x y hxy => (C69_expression x y).1 hxy) h
  · exact fun h => h ▸ rfl

theorem option_visit_inj {a b : Option CExpr} : a.map visitExpr = b.map visitExpr ↔ a = b := by
  cases a <;> cases b <;> simp [C69_expression]

theorem option_option_visit_inj {a b : Option (Option CExpr)} :
    a.map (Option.map visitExpr) = b.map (Option.map visitExpr) ↔ a = b := by
  cases a <;> cases b <;> simp [option_visit_inj]

theorem visitTypeRef_plain (t : CTypeRef) : ∃ b p n bits targs, visitTypeRef t = .mk b p n bits targs [] none := by
  cases t with
  | builtin b =>
    obtain ⟨n, bits, h⟩ := visitBuiltin_builtin b.text
    exact ⟨_, _, _, _, _, by rw [visitTypeRef, h]⟩
  | named a as ts => exact ⟨_, _, _, _, _, by rw [visitTypeRef]⟩

/-- A type reference with arguments put in. -/
def ATypeRef.withArgs : ATypeRef → List AExpr → Option AExpr → ATypeRef
  | .mk b p n bits targs _ _, args, length => .mk b p n bits targs args length

theorem visitTypeInst_eq (t : CTypeInst) :
    visitTypeInst t =
      (visitTypeRef t.type).withArgs ((t.args.list.map CTypeArg.expr).map visitExpr) (t.args.length.map visitExpr) := by
  obtain ⟨b, p, n, bits, targs, h⟩ := visitTypeRef_plain t.type
  unfold visitTypeInst
  rw [h]
  cases ht : t.args with
  | none => simp [CArgs.list, CArgs.length, ATypeRef.withArgs]
  | typeArgs f r => simp [CArgs.list, CArgs.length, ATypeRef.withArgs, visitTypeArg_expr]
  | dynamicLength e => simp [CArgs.list, CArgs.length, ATypeRef.withArgs]

theorem visitTypeInst_same (a b : CTypeInst) (ha : LegalType a.type) (hb : LegalType b.type) :
    visitTypeInst a = visitTypeInst b ↔ SameInst a b := by
  rw [visitTypeInst_eq, visitTypeInst_eq, SameInst, ← visitTypeRef_same _ _ ha hb]
  obtain ⟨x, p, n, bits, targs, h⟩ := visitTypeRef_plain a.type
  obtain ⟨x', p', n', bits', targs', h'⟩ := visitTypeRef_plain b.type
  rw [h, h']
  simp only [ATypeRef.withArgs, ATypeRef.mk.injEq, map_visit_inj, option_visit_inj, and_true]
  tauto

end Verif
