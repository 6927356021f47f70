import Verif.Props.Lexer

/-!
# The words and signs of the language (C82)

`Verif/Props/Lexer.lean` says what a text is cut into, for the texts of words and signs that `Verif/Lexer.lean` has.  Here are
these texts once more, as the language defines them.
-/

namespace Verif

/-- The words that are no names. -/
def keywordTable : List (String × Keyword) :=
  [("align", .align), ("bit", .bit), ("bool", .bool), ("bitmask", .bitmask), ("bytes", .bytes), ("case", .case),
    ("choice", .choice), ("const", .const), ("default", .default), ("@deprecated", .deprecated), ("enum", .enum),
    ("explicit", .explicit), ("extend", .extend), ("extern", .extern), ("float16", .float16), ("float32", .float32),
    ("float64", .float64), ("function", .function), ("if", .if), ("implicit", .implicit), ("import", .import), ("@index", .index),
    ("instantiate", .instantiate), ("int", .int), ("int16", .int16), ("int32", .int32), ("int64", .int64), ("int8", .int8),
    ("isset", .isset), ("lengthof", .lengthof), ("numbits", .numbits), ("on", .on), ("optional", .optional),
    ("package", .package), ("packed", .packed), ("pubsub", .pubsub), ("publish", .publish), ("@removed", .removed),
    ("return", .return), ("rule", .rule), ("rule_group", .ruleGroup), ("service", .service), ("sql", .sql),
    ("sql_database", .sqlDatabase), ("sql_table", .sqlTable), ("sql_virtual", .sqlVirtual),
    ("sql_without_rowid", .sqlWithoutRowid), ("string", .string), ("struct", .struct), ("subscribe", .subscribe),
    ("subtype", .subtype), ("topic", .topic), ("uint16", .uint16), ("uint32", .uint32), ("uint64", .uint64), ("uint8", .uint8),
    ("union", .union), ("using", .using), ("valueof", .valueof), ("varint", .varint), ("varint16", .varint16),
    ("varint32", .varint32), ("varint64", .varint64), ("varsize", .varsize), ("varuint", .varuint), ("varuint16", .varuint16),
    ("varuint32", .varuint32), ("varuint64", .varuint64), ("zserio_compatibility_version", .compatVersion)]

/-- The signs. -/
def signTable : List (String × Punct) :=
  [("(", .lparen), (")", .rparen), ("[", .lbracket), ("]", .rbracket), ("{", .lbrace), ("}", .rbrace), (",", .comma),
    (";", .semicolon), (":", .colon), (".", .dot), ("=", .assign), ("?", .questionmark), ("+", .plus), ("-", .minus),
    ("*", .multiply), ("/", .divide), ("%", .modulo), ("!", .bang), ("~", .tilde), ("&", .and), ("|", .or), ("^", .xor),
    ("&&", .logicalAnd), ("||", .logicalOr), ("==", .eq), ("!=", .ne), ("<", .lt), ("<=", .le), (">", .gt), (">=", .ge),
    ("<<", .lshift)]

/-- Every word and every sign of the language, on its own in a file, is read as what it is, and there are no others; no word and
no sign means two things. -/
theorem C82_texts :
    (∀ p ∈ keywordTable, lex p.1.toList = some [.keyword p.2]) ∧ (∀ p ∈ signTable, lex p.1.toList = some [.sym p.2]) ∧
    (∀ k : Keyword, ∃ w, (w, k) ∈ keywordTable ∧ k.text = w.toList) ∧ (∀ s : Punct, ∃ w, (w, s) ∈ signTable ∧ s.text = w.toList) ∧
    (keywordTable.map Prod.fst).Nodup ∧ (signTable.map Prod.fst).Nodup := by
  refine ⟨by decide +kernel, by decide +kernel, ?_, ?_, by decide +kernel, by decide +kernel⟩
  · intro k
    exact ⟨String.ofList k.text, by cases k <;> decide +kernel, by simp⟩
  · intro s
    exact ⟨String.ofList s.text, by cases s <;> decide +kernel, by simp⟩

/-- A word of the language that a reader takes for a name. -/
example : lex "int7".toList = some [.id ⟨"int7".toList, rfl⟩] := by decide +kernel

end Verif
