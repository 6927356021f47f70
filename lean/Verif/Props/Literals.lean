import Verif.Literals
import Mathlib.Data.Nat.Digits.Defs
import Mathlib.Tactic.Ring

/-!
# C56, C57, C58: literals
-/

namespace Verif

/-! ## C56: integers -/

/-- A character is the digit of a number, in capital or small letters. -/
def IsDigit (c : Char) (d : Nat) : Prop := c = Nat.digitChar d ∨ c = (Nat.digitChar d).toUpper

/-- The base of a kind of literal. -/
def LitKind.base : LitKind → Nat
  | .binary => 2
  | .octal => 8
  | .decimal => 10
  | .hexadecimal => 16

/-- The tokens of the schema language: the text of a literal with the digits `ds`, the most significant first. -/
inductive LitText : LitKind → Text → List Nat → Prop
  | binary (body ds suffix) : List.Forall₂ IsDigit body ds → (suffix = 'b' ∨ suffix = 'B') → LitText .binary (body ++ [suffix]) ds
  | octal (body ds) : List.Forall₂ IsDigit body ds → LitText .octal ('0' :: body) ds
  | decimal (body ds) : List.Forall₂ IsDigit body ds → (∀ d, ds.head? = some d → d ≠ 0 ∨ ds = [0]) → LitText .decimal body ds
  | hexadecimal (x body ds) : List.Forall₂ IsDigit body ds → (x = 'x' ∨ x = 'X') → LitText .hexadecimal ('0' :: x :: body) ds

theorem digitVal_of_isDigit {c : Char} {d : Nat} (h : IsDigit c d) (hd : d < 16) : digitVal c = some d := by
  have : ∀ d < 16, digitVal (Nat.digitChar d) = some d ∧ digitVal (Nat.digitChar d).toUpper = some d := by decide +kernel
  rcases h with h | h <;> rw [h]
  · exact (this d hd).1
  · exact (this d hd).2

/-- The loop reads the number, or fails if it needs more than 64 bits. -/
theorem parseDigits_eq (base : Nat) (hb : 2 ≤ base ∧ base ≤ 16) : ∀ (body : Text) (ds : List Nat) (n : Nat),
    List.Forall₂ IsDigit body ds → (∀ d ∈ ds, d < base) → n < 2 ^ 64 →
    parseDigits base n body =
      if n * base ^ ds.length + Nat.ofDigits base ds.reverse < 2 ^ 64
      then .ok (n * base ^ ds.length + Nat.ofDigits base ds.reverse) else .error .range := by
  intro body ds n h
  induction h generalizing n with
  | nil => intro _ hn; simp [parseDigits]; omega
  | @cons c d cs ds hc hcs ih =>
    intro hds hn
    have hd := hds d (by simp)
    have key : n * base ^ (d :: ds).length + Nat.ofDigits base (d :: ds).reverse
        = (n * base + d) * base ^ ds.length + Nat.ofDigits base ds.reverse := by
      rw [List.reverse_cons, Nat.ofDigits_append, List.length_reverse, List.length_cons, Nat.ofDigits_singleton]; ring
    rw [parseDigits, digitVal_of_isDigit hc (by omega)]
    simp only [show ¬ base ≤ d from by omega, if_false]
    rw [key]
    split
    · rename_i hov
      have : n * base + d ≤ (n * base + d) * base ^ ds.length := Nat.le_mul_of_pos_right _ (Nat.pow_pos (by omega))
      rw [if_neg (by omega)]
    · rename_i hov
      exact ih _ (fun x hx => hds x (by simp [hx])) (by omega)

theorem parseDigits_zero (base : Nat) (hb : 2 ≤ base ∧ base ≤ 16) (body : Text) (ds : List Nat)
    (h : List.Forall₂ IsDigit body ds) (hds : ∀ d ∈ ds, d < base) :
    parseDigits base 0 body =
      if Nat.ofDigits base ds.reverse < 2 ^ 64 then .ok (Nat.ofDigits base ds.reverse) else .error .range := by
  have := parseDigits_eq base hb body ds 0 h hds (by norm_num)
  simpa using this

theorem isDigit_not_letter {c : Char} {d : Nat} (h : IsDigit c d) (hd : d < 8) :
    ¬ (c = 'b' ∨ c = 'B') ∧ ¬ (c = 'o' ∨ c = 'O') ∧ ¬ (c = 'x' ∨ c = 'X') := by
  have : ∀ d < 8, ∀ c ∈ [Nat.digitChar d, (Nat.digitChar d).toUpper],
      ¬ (c = 'b' ∨ c = 'B') ∧ ¬ (c = 'o' ∨ c = 'O') ∧ ¬ (c = 'x' ∨ c = 'X') := by decide +kernel
  exact this d hd c (by rcases h with h | h <;> simp [h])

/-- What `ParseUint` makes of a token without suffix. -/
theorem intLiteral_eq (k : LitKind) (text : Text) (ds : List Nat) (h : LitText k text ds) (hne : ds ≠ [])
    (hds : ∀ d ∈ ds, d < k.base) (hsuf : k = .binary → text.getLast? = some 'b') :
    intLiteral k text =
      if Nat.ofDigits k.base ds.reverse < 2 ^ 63 then .ok (Nat.ofDigits k.base ds.reverse) else .error .range := by
  have fin : ∀ v : Nat, (match (if v < 2 ^ 64 then (.ok v : Except LitErr Nat) else .error .range) with
      | .error e => (.error e : Except LitErr Nat)
      | .ok n => if 2 ^ 63 ≤ n then .error .range else .ok n) = if v < 2 ^ 63 then .ok v else .error .range := by
    intro v
    by_cases h1 : v < 2 ^ 63
    · have h2 : v < 2 ^ 64 := by omega
      simp only [h1, h2, if_true, show ¬ 2 ^ 63 ≤ v from by omega, if_false]
    · by_cases h2 : v < 2 ^ 64
      · simp only [h1, h2, if_true, show 2 ^ 63 ≤ v from by omega, if_false]
      · simp only [h1, h2, if_false]
  cases h with
  | binary body _ suffix hb hs =>
    have hsuf := hsuf rfl
    simp only [List.getLast?_append, List.getLast?_singleton, Option.some_or, Option.some.injEq] at hsuf
    subst hsuf
    simp only [intLiteral, binaryLiteral, List.getLast?_append, List.getLast?_singleton, Option.some_or, if_true,
      List.dropLast_concat, parseInt]
    cases hb with
    | nil => exact absurd rfl hne
    | cons hc hcs =>
      simp only [parseUint, ne_eq, show ¬ (2 = 0) from by decide, not_false_eq_true, if_true]
      rw [parseDigits_zero 2 (by decide) _ _ (.cons hc hcs) hds]
      exact fin _
  | octal body _ hb =>
    simp only [intLiteral, parseInt]
    cases hb with
    | nil => exact absurd rfl hne
    | @cons c d cs ds' hc hcs =>
      cases hcs with
      | nil =>
        simp only [parseUint, ne_eq, not_true, if_false, if_true]
        rw [parseDigits_zero 8 (by decide) _ _ (.cons hc .nil) hds]
        exact fin _
      | cons hc2 hcs2 =>
        have := isDigit_not_letter hc (hds d (by simp))
        simp only [parseUint, ne_eq, not_true, if_false, if_true, this]
        rw [parseDigits_zero 8 (by decide) _ _ (.cons hc (.cons hc2 hcs2)) hds]
        exact fin _
  | decimal body _ hb =>
    simp only [intLiteral, parseInt]
    cases hb with
    | nil => exact absurd rfl hne
    | cons hc hcs =>
      simp only [parseUint, ne_eq, show ¬ (10 = 0) from by decide, not_false_eq_true, if_true]
      rw [parseDigits_zero 10 (by decide) _ _ (.cons hc hcs) hds]
      exact fin _
  | hexadecimal x body _ hb hx =>
    simp only [intLiteral, parseInt]
    cases hb with
    | nil => exact absurd rfl hne
    | cons hc hcs =>
      have hx' : ¬ (x = 'b' ∨ x = 'B') ∧ ¬ (x = 'o' ∨ x = 'O') := by rcases hx with rfl | rfl <;> decide
      simp only [parseUint, ne_eq, not_true, if_false, if_true, hx', hx]
      rw [parseDigits_zero 16 (by decide) _ _ (.cons hc hcs) hds]
      exact fin _

/-- **C56 (part).** An integer literal - binary with a small `b`, octal, decimal or hexadecimal in any mix of cases - whose
number is below 2^63 is accepted and has that number as its value. -/
theorem C56_value_partial (k : LitKind) (text : Text) (ds : List Nat) (h : LitText k text ds) (hne : ds ≠ [])
    (hds : ∀ d ∈ ds, d < k.base) (hsuf : k = .binary → text.getLast? = some 'b')
    (hv : Nat.ofDigits k.base ds.reverse < 2 ^ 63) :
    intLiteral k text = .ok (Nat.ofDigits k.base ds.reverse) := by
  rw [intLiteral_eq k text ds h hne hds hsuf, if_pos hv]

example : intLiteral .hexadecimal "0x1fF".toList = .ok 511 :=
  C56_value_partial .hexadecimal _ [1, 15, 15]
    (.hexadecimal 'x' ['1', 'f', 'F'] [1, 15, 15] (.cons (.inl rfl) (.cons (.inl rfl) (.cons (.inr (by decide)) .nil))) (.inl rfl))
    (by decide) (by decide) (by decide) (by decide)

/-- **C56, violated.** Every number that needs 64 bits is refused in every notation, although uint64 has it. -/
theorem C56_violated_large (k : LitKind) (text : Text) (ds : List Nat) (h : LitText k text ds) (hne : ds ≠ [])
    (hds : ∀ d ∈ ds, d < k.base) (hv : 2 ^ 63 ≤ Nat.ofDigits k.base ds.reverse) :
    ∃ e, intLiteral k text = .error e := by
  by_cases hsuf : k = .binary → text.getLast? = some 'b'
  · exact ⟨_, by rw [intLiteral_eq k text ds h hne hds hsuf, if_neg (by omega)]⟩
  · simp only [Classical.not_imp] at hsuf
    refine ⟨.syntax, ?_⟩
    obtain ⟨rfl, hs⟩ := hsuf
    rw [intLiteral, binaryLiteral, if_neg hs]

example : ∃ e, intLiteral .hexadecimal "0xFFFFFFFFFFFFFFFF".toList = .error e :=
  C56_violated_large .hexadecimal _ (List.replicate 16 15)
    (.hexadecimal 'x' (List.replicate 16 'F') (List.replicate 16 15)
      (by repeat' first | exact .nil | refine List.Forall₂.cons (.inr (by decide)) ?_) (.inl rfl))
    (by decide) (by decide) (by decide +kernel)

/-- **C56, violated.** A binary literal with a capital `B`, which the lexer accepts, is refused whatever its digits. -/
theorem C56_violated_suffix (text : Text) (ds : List Nat) (_ : LitText .binary text ds) (hB : text.getLast? = some 'B') :
    intLiteral .binary text = .error .syntax := by
  simp [intLiteral, binaryLiteral, hB]

example : LitText .binary "101B".toList [1, 0, 1] :=
  .binary ['1', '0', '1'] [1, 0, 1] 'B' (.cons (.inl rfl) (.cons (.inl rfl) (.cons (.inl rfl) .nil))) (.inr rfl)

/-! ## C57: strings -/

/-- The text a string literal stands for, per character and escape sequence of the lexer
(/repo/internal/parser/ZserioLexer.g4:121-127): what is between the quotes, and what it means. -/
inductive StringText : Text → Text → Prop
  | nil : StringText [] []
  | plain (c s t) : c ≠ '"' → c ≠ '\\' → c ≠ '\r' → c ≠ '\n' → StringText s t → StringText (c :: s) (c :: t)
  | quote (s t) : StringText s t → StringText ('\\' :: '"' :: s) ('"' :: t)
  | backslash (s t) : StringText s t → StringText ('\\' :: '\\' :: s) ('\\' :: t)
  | ret (s t) : StringText s t → StringText ('\\' :: 'r' :: s) ('\r' :: t)
  | newline (s t) : StringText s t → StringText ('\\' :: 'n' :: s) ('\n' :: t)
  | tab (s t) : StringText s t → StringText ('\\' :: 't' :: s) ('\t' :: t)
  | formfeed (s t) : StringText s t → StringText ('\\' :: 'f' :: s) (Char.ofNat 12 :: t)
  | hex (a b : Char) (x y : Nat) (s t) : IsDigit a x → IsDigit b y → x < 16 → y < 16 → StringText s t →
      StringText ('\\' :: 'x' :: a :: b :: s) (Char.ofNat (16 * x + y) :: t)

/-- **C57 (part).** A string literal without escape sequences has the text between its quotes as value. -/
theorem C57_plain_partial (s t : Text) (h : StringText s t) (hesc : '\\' ∉ s) :
    stringLiteral (['"'] ++ s ++ ['"']) = some t := by
  have : s = t := by
    induction h with
    | nil => rfl
    | plain c s t h1 h2 h3 h4 _ ih => rw [ih (fun h => hesc (by simp [h]))]
    | _ => simp at hesc
  subst this
  simp [stringLiteral]

example : stringLiteral "\"zserio\"".toList = some "zserio".toList :=
  C57_plain_partial "zserio".toList "zserio".toList
    (by repeat' first | exact StringText.nil | refine StringText.plain _ _ _ (by decide) (by decide) (by decide) (by decide) ?_)
    (by decide)

/-- **C57, violated.** A string literal with an escape sequence never has the value it stands for: the backslash and the
characters after it are taken as they are. -/
theorem C57_violated_escape (s t : Text) (h : StringText s t) (hesc : '\\' ∈ s) :
    stringLiteral (['"'] ++ s ++ ['"']) ≠ some t := by
  have hlen : t.length ≤ s.length ∧ ('\\' ∈ s → t.length < s.length) := by
    clear hesc
    induction h with
    | nil => simp
    | plain c s t h1 h2 h3 h4 _ ih =>
      simp only [List.length_cons, List.mem_cons]
      refine ⟨by omega, fun h => ?_⟩
      rcases h with h | h
      · exact absurd h.symm h2
      · have := ih.2 h; omega
    | _ => rename_i ih; simp only [List.length_cons]; exact ⟨by omega, fun _ => by omega⟩
  intro he
  have : some s = some t := by rw [← he]; simp [stringLiteral]
  have h2 := hlen.2 hesc
  simp only [Option.some.injEq] at this
  rw [this] at h2; omega

example : stringLiteral ['"', '\\', 'n', '"'] ≠ some ['\n'] := C57_violated_escape _ _ (.newline _ _ .nil) (by simp)

/-! ## C58: floating point -/

/-- An exponent: /repo/internal/parser/ZserioLexer.g4:139 -/
inductive ExpText : Text → Prop
  | mk (e : Char) (sign ds : Text) : (e = 'e' ∨ e = 'E') → (sign = [] ∨ sign = ['+'] ∨ sign = ['-']) → ds ≠ [] →
      (∀ c ∈ ds, isNum c) → ExpText (e :: sign ++ ds)

/-- `DOUBLE_LITERAL`: /repo/internal/parser/ZserioLexer.g4:141-145 -/
inductive DoubleText : Text → Prop
  | whole (ds e) : ds ≠ [] → (∀ c ∈ ds, isNum c) → ExpText e → DoubleText (ds ++ e)
  | point (ds fs e) : ds ≠ [] → (∀ c ∈ ds, isNum c) → (∀ c ∈ fs, isNum c) → (e = [] ∨ ExpText e) → DoubleText (ds ++ '.' :: fs ++ e)
  | frac (fs e) : fs ≠ [] → (∀ c ∈ fs, isNum c) → (e = [] ∨ ExpText e) → DoubleText ('.' :: fs ++ e)

theorem spanDigits_append (ds rest : Text) (h : ∀ c ∈ ds, isNum c) (hr : ∀ c, rest.head? = some c → isNum c = false) :
    spanDigits (ds ++ rest) = (ds, rest) := by
  induction ds with
  | nil =>
    cases rest with
    | nil => rfl
    | cons c cs => simp [spanDigits, hr c rfl]
  | cons d ds ih =>
    simp [spanDigits, h d (by simp), ih (fun c hc => h c (by simp [hc]))]

theorem goExponent_text (e suffix : Text) (h : e = [] ∨ ExpText e) (hs : suffix = [] ∨ suffix = ['f'] ∨ suffix = ['F']) :
    goExponent (e ++ suffix) = some suffix := by
  have hn : ∀ c, suffix.head? = some c → isNum c = false := by
    rcases hs with rfl | rfl | rfl <;> simp <;> decide
  rcases h with rfl | h
  · rcases hs with rfl | rfl | rfl <;> rfl
  · obtain ⟨c, sign, ds, hc, hsign, hne, hds⟩ := h
    obtain ⟨d, ds', rfl⟩ := List.exists_cons_of_ne_nil hne
    have hd : ¬ (d = '+' ∨ d = '-') := by
      have := hds d (by simp)
      rintro (rfl | rfl) <;> exact absurd this (by decide)
    have hspan := spanDigits_append (d :: ds') suffix hds hn
    simp only [List.cons_append] at hspan
    rcases hsign with rfl | rfl | rfl
    · simp only [List.cons_append, List.nil_append, goExponent, hc, if_true, hd, if_false, hspan]
      simp
    · simp [goExponent, hc, hspan]
    · simp [goExponent, hc, hspan]

theorem parseFloat_text (s suffix : Text) (h : DoubleText s) (hs : suffix = [] ∨ suffix = ['f'] ∨ suffix = ['F']) :
    parseFloatAccepts (s ++ suffix) = decide (suffix = []) := by
  have hn : ∀ c, suffix.head? = some c → isNum c = false := by
    rcases hs with rfl | rfl | rfl <;> simp <;> decide
  have he : ∀ e, (e = [] ∨ ExpText e) → ∀ c, (e ++ suffix).head? = some c → isNum c = false := by
    intro e h
    rcases h with rfl | ⟨c, sign, ds, hc, _, _, _⟩
    · exact hn
    · rcases hc with rfl | rfl <;> simp <;> decide
  have hfin : decide (some suffix = some ([] : Text)) = decide (suffix = []) := by simp
  cases h with
  | whole ds e hne hds hexp =>
    have hdot : ∀ r, e ++ suffix ≠ '.' :: r := by
      obtain ⟨c, sign, ds, hc, _, _, _⟩ := hexp
      rcases hc with rfl | rfl <;> simp
    have hm : (match e ++ suffix with | '.' :: r => spanDigits r | r => ([], r)) = ([], e ++ suffix) := by
      split
      · rename_i r hr; exact absurd hr (hdot r)
      · rfl
    rw [List.append_assoc, parseFloatAccepts, spanDigits_append ds _ hds (he e (.inr hexp))]
    simp only [hne, false_and, if_false, goExponent_text e suffix (.inr hexp) hs, hfin]
  | point ds fs e hne hds hfs hexp =>
    have h1 := spanDigits_append ds ('.' :: (fs ++ (e ++ suffix))) hds (by simp; decide)
    have h2 := spanDigits_append fs (e ++ suffix) hfs (he e hexp)
    simp only [List.append_assoc, List.cons_append, parseFloatAccepts]
    simp only [h1, h2, hne, false_and, if_false, goExponent_text e suffix hexp hs, hfin]
  | frac fs e hne hfs hexp =>
    have h2 := spanDigits_append fs (e ++ suffix) hfs (he e hexp)
    have h1 : spanDigits ('.' :: (fs ++ (e ++ suffix))) = ([], '.' :: (fs ++ (e ++ suffix))) := rfl
    simp only [List.append_assoc, List.cons_append, parseFloatAccepts]
    simp only [h1, h2, hne, and_false, if_false, goExponent_text e suffix hexp hs, hfin]

/-- **C58 (part).** Every floating point literal without suffix is accepted. -/
theorem C58_double_partial (s : Text) (h : DoubleText s) : parseFloatAccepts s = true := by
  simpa using parseFloat_text s [] h (.inl rfl)

example : parseFloatAccepts "1.5e-3".toList = true :=
  C58_double_partial _ (.point ['1'] ['5'] ['e', '-', '3'] (by simp) (by simp; decide) (by simp; decide)
    (.inr (.mk 'e' ['-'] ['3'] (by simp) (by simp) (by simp) (by simp; decide))))

/-- **C58, violated.** No literal with the suffix `f` or `F` of single precision is accepted: the suffix is passed on to
`ParseFloat`, which does not know it. -/
theorem C58_violated_suffix (s : Text) (h : DoubleText s) :
    parseFloatAccepts (s ++ ['f']) = false ∧ parseFloatAccepts (s ++ ['F']) = false := by
  exact ⟨by simpa using parseFloat_text s ['f'] h (.inr (.inl rfl)), by simpa using parseFloat_text s ['F'] h (.inr (.inr rfl))⟩

example : DoubleText "0.5".toList := .point ['0'] ['5'] [] (by simp) (by simp; decide) (by simp; decide) (.inl rfl)

end Verif
