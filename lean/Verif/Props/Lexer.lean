import Verif.Props.LexerRules
import Verif.Props.Parser

/-!
# Words, literals and comments (C82)

What a text lexes to, on top of the rules in `Verif/Props/LexerRules.lean`.
-/

namespace Verif

/-! ## Nothing longer matches, continued -/

theorem double_dot {t r : List Char} (h : LiteralText .double t) (ht : t = '.' :: r) : ∃ d r', r = d :: r' ∧ d.isDigit = true := by
  cases h with
  | @double whole fraction exponent h1 h2 h3 h4 =>
    cases whole with
    | nil =>
      cases fraction with
      | nil => simp at h1
      | cons d ds => cases ht; exact ⟨d, _, rfl, h3 d (by simp)⟩
    | cons x xs =>
      have := h2 x (by simp)
      cases (List.cons.inj ht).1
      exact absurd this (by decide)
  | @doubleWhole whole exponent h1 h2 h3 =>
    cases whole with
    | nil => exact absurd rfl h1
    | cons x xs =>
      have := h2 x (by simp)
      cases (List.cons.inj ht).1
      exact absurd this (by decide)

theorem float_dot {t r : List Char} (h : LiteralText .float t) (ht : t = '.' :: r) : ∃ d r', r = d :: r' ∧ d.isDigit = true := by
  cases h with
  | @float t f h hf =>
    cases t with
    | nil => cases (List.cons.inj ht).1; rcases hf with hf | hf <;> exact absurd hf (by decide)
    | cons x xs =>
      cases ht
      obtain ⟨d, r', h1, h2⟩ := double_dot h rfl
      exact ⟨d, r' ++ [f], by rw [h1]; rfl, h2⟩

theorem sym_longer {s : Punct} {c : Char} (h : mayTouch (.sym s) c = true) (cs : List Char) : recognise (s.text ++ c :: cs) = none := by
  have hn : 1 ≤ s.text.length := by cases s <;> decide
  have num : ∀ {t : List Char}, Numeral t → t = s.text ++ c :: cs → s = .dot := by
    intro t ht heq
    obtain ⟨y, ys, h1, h2⟩ := numeral_head ht
    rw [h1] at heq
    obtain ⟨x, xs, h3, h4, -⟩ := sym_head s
    rw [h3] at heq
    cases (List.cons.inj heq).1
    rcases h2 with h2 | rfl
    · rw [isDigit_isIdChar h2] at h4; exact nomatch h4
    · cases s <;> simp [Punct.text] at h3 ⊢
  refine not_recognised (by simp; omega) ?_ ?_ ?_ ?_ ?_ (fun hd => ?_) (fun hd => ?_) (fun hw => ?_)
  · intro s' heq
    cases s' <;> cases s <;> simp [Punct.text] at heq <;> (obtain ⟨rfl, -⟩ := heq; simp [mayTouch] at h)
  · intro k heq
    obtain ⟨y, ys, h1, h2⟩ := keyword_head k
    obtain ⟨x, xs, h3, h4, h5, -⟩ := sym_head s
    rw [h1, h3] at heq
    cases (List.cons.inj heq).1
    rcases h2 with h2 | rfl
    · simp [isIdChar, h2] at h4
    · exact h5 rfl
  · intro r heq
    cases s <;> simp [Punct.text] at heq
    obtain ⟨rfl, -⟩ := heq
    simp [mayTouch] at h
  · intro r heq
    cases s <;> simp [Punct.text] at heq
    obtain ⟨rfl, -⟩ := heq
    simp [mayTouch] at h
  · intro r heq
    cases s <;> simp [Punct.text] at heq
  · cases num ⟨.double, by simp, by simp, hd⟩ rfl
    obtain ⟨d, r', h1, h2⟩ := double_dot hd rfl
    cases h1
    simp [mayTouch, h2] at h
  · cases num ⟨.float, by simp, by simp, hd⟩ rfl
    obtain ⟨d, r', h1, h2⟩ := float_dot hd rfl
    cases h1
    simp [mayTouch, h2] at h
  · obtain ⟨x, xs, h3, h4, -⟩ := sym_head s
    have := hw.2 x (by rw [h3]; simp)
    rw [h4] at this; exact nomatch this

theorem keyword_longer {k : Keyword} {c : Char} (h : isIdChar c = false) (cs : List Char) : recognise (k.text ++ c :: cs) = none := by
  rcases keyword_chars k with hk | hk
  · exact word_longer hk h cs
  have hat : ∃ xs, k.text = '@' :: xs := by
    simp only [List.mem_cons, List.not_mem_nil, or_false] at hk
    rcases hk with hk | hk | hk <;> exact ⟨_, hk⟩
  obtain ⟨xs, hat⟩ := hat
  have num : ∀ {t : List Char}, Numeral t → t ≠ k.text ++ c :: cs := by
    intro t ht heq
    obtain ⟨y, ys, h1, h2⟩ := numeral_head ht
    rw [h1, hat] at heq
    cases (List.cons.inj heq).1
    exact absurd h2 (by decide)
  refine not_recognised (by rw [hat]; simp; omega) ?_ ?_ ?_ ?_ ?_ (fun hd => num ⟨.double, by simp, by simp, hd⟩ rfl)
    (fun hd => num ⟨.float, by simp, by simp, hd⟩ rfl) (fun hw => ?_)
  · intro s heq
    obtain ⟨x, xs', h3, -, h5, -⟩ := sym_head s
    rw [h3, hat] at heq
    exact h5 (List.cons.inj heq).1.symm
  · intro k' heq
    rcases keyword_chars k' with hk' | hk'
    · have := (idText_word hk').2 '@' (by rw [← heq, hat]; simp)
      exact absurd this (by decide)
    · rw [← heq] at hk'
      simp only [List.mem_cons, List.not_mem_nil, or_false] at hk hk'
      rcases hk with hk | hk | hk <;> rw [hk] at hk' <;> simp at hk'
  · intro r heq; rw [hat] at heq; exact absurd (List.cons.inj heq).1 (by decide)
  · intro r heq; rw [hat] at heq; exact absurd (List.cons.inj heq).1 (by decide)
  · intro r heq; rw [hat] at heq; exact absurd (List.cons.inj heq).1 (by decide)
  · exact absurd (hw.2 '@' (by rw [hat]; simp)) (by decide)

theorem isBlank_iff (c : Char) : isBlank c = true ↔ c ∈ [' ', '\t', '\n', '\r', '\x0c'] := by
  simp only [isBlank, isLineEnd, Bool.or_eq_true, beq_iff_eq, List.mem_cons, List.not_mem_nil, or_false]
  tauto

theorem space_longer {x : Char} (hx : isBlank x = true) (c : Char) (cs : List Char) : recognise (x :: c :: cs) = none := by
  have cases5 : ∀ P : Char → Prop, P ' ' → P '\t' → P '\n' → P '\r' → P '\x0c' → P x := by
    intro P h1 h2 h3 h4 h5
    rw [isBlank_iff] at hx
    simp only [List.mem_cons, List.not_mem_nil, or_false] at hx
    rcases hx with rfl | rfl | rfl | rfl | rfl <;> assumption
  have num : ∀ {t : List Char}, Numeral t → t ≠ x :: c :: cs := by
    intro t ht heq
    obtain ⟨y, ys, h1, h2⟩ := numeral_head ht
    rw [h1] at heq
    cases (List.cons.inj heq).1
    revert h2
    exact cases5 (fun x => ¬ (x.isDigit = true ∨ x = '.')) (by decide) (by decide) (by decide) (by decide) (by decide)
  refine not_recognised (by simp) ?_ ?_ ?_ ?_ ?_ (fun hd => num ⟨.double, by simp, by simp, hd⟩ rfl)
    (fun hd => num ⟨.float, by simp, by simp, hd⟩ rfl) (fun hw => ?_)
  · intro s heq
    obtain ⟨y, ys, h3, -, -, -, h5⟩ := sym_head s
    rw [h3] at heq
    cases (List.cons.inj heq).1
    rw [hx] at h5; exact nomatch h5
  · intro k heq
    obtain ⟨y, ys, h3, h4⟩ := keyword_head k
    rw [h3] at heq
    cases (List.cons.inj heq).1
    revert h4
    exact cases5 (fun x => ¬ (isIdStart x = true ∨ x = '@')) (by decide) (by decide) (by decide) (by decide) (by decide)
  · intro r heq; cases heq; exact absurd hx (by decide)
  · intro r heq; cases heq; exact absurd hx (by decide)
  · intro r heq; cases heq; exact absurd hx (by decide)
  · have := hw.2 x (by simp)
    revert this
    exact cases5 (fun x => ¬ (isIdChar x = true)) (by decide) (by decide) (by decide) (by decide) (by decide)

theorem stringTail_longer (a : List Char) (h : isStringTail a = true) (c : Char) (cs : List Char) :
    isStringTail (a ++ c :: cs) = false := by
  fun_induction isStringTail a with
  | case1 => exact nomatch h
  | case2 => simp [isStringTail]
  | case3 => simp_all [isStringTail]
  | case4 => simp_all [isStringTail]
  | case5 => simp_all [isStringTail]
  | case6 x rest h1 h2 h3 ih =>
    simp only [Bool.and_eq_true] at h
    have hx : x ≠ 'u' ∧ x ≠ 'x' ∧ x ≠ '0' := by
      refine ⟨?_, ?_, ?_⟩ <;> (rintro rfl; exact absurd h.1 (by decide))
    rw [List.cons_append, List.cons_append, isStringTail]
    · rw [ih h.2, Bool.and_false]
    · intro _ _ _ _ _ h; exact absurd h hx.1
    · intro _ _ _ h; exact absurd h hx.2.1
    · intro _ _ h; exact absurd h hx.2.2
  | case7 x rest h1 h2 h3 h4 h5 ih => 
    simp only [Bool.and_eq_true, bne_iff_ne, ne_eq, Bool.not_eq_true'] at h
    rw [List.cons_append, isStringTail.eq_7]
    · rw [ih h.2, Bool.and_false]
    all_goals simp_all

theorem endsAtClose_longer (a : List Char) (h : endsAtClose a = true) (c : Char) (cs : List Char) :
    endsAtClose (a ++ c :: cs) = false := by
  fun_induction endsAtClose a with
  | case1 => exact nomatch h
  | case2 rest => cases rest with
    | nil => rfl
    | cons => exact nomatch h
  | case3 x rest hx ih =>
    rw [List.cons_append, endsAtClose]
    · exact ih h
    · intro r hxx heq
      cases rest with
      | nil => simp [endsAtClose] at h
      | cons y ys =>
        cases heq
        exact hx ys hxx rfl

theorem endsAtClose_cons {x : Char} {l : List Char} (h : endsAtClose (x :: l) = true) (hl : l ≠ ['/']) : endsAtClose l = true := by
  unfold endsAtClose at h
  split at h
  · next heq => exact nomatch heq
  · next heq =>
    cases heq
    next rest => 
    cases rest with
    | nil => exact absurd rfl hl
    | cons => exact nomatch h
  · next heq => cases heq; exact h

/-- What no rule for text that begins with a slash or a quote matches. -/
theorem not_recognised_slash {r : List Char} (hlen : 2 ≤ r.length) (hd : isDocComment ('/' :: r) = false)
    (hm : isMarkdownComment ('/' :: r) = false) (hb : isBlockComment ('/' :: r) = false) (hl : isLineComment ('/' :: r) = false) :
    recognise ('/' :: r) = none := by
  by_contra h
  have num : ∀ {t : List Char}, Numeral t → t ≠ '/' :: r := by
    intro t ht heq
    obtain ⟨y, ys, h1, h2⟩ := numeral_head ht
    rw [h1] at heq
    cases (List.cons.inj heq).1
    exact absurd h2 (by decide)
  rcases recognise_cases h with ⟨s, h⟩ | ⟨k, h⟩ | ⟨c, h, -⟩ | h | h | h | h | h | h | h | h | h
  · have : s.text.length ≤ 2 := by cases s <;> decide
    rw [← h] at this
    simp at this
    omega
  · obtain ⟨y, ys, h3, h4⟩ := keyword_head k
    rw [h3] at h
    cases (List.cons.inj h).1
    exact absurd h4 (by decide)
  · cases h; simp at hlen
  · rw [hd] at h; exact nomatch h
  · rw [hm] at h; exact nomatch h
  · rw [hb] at h; exact nomatch h
  · rw [hl] at h; exact nomatch h
  · simp [isStringText] at h
  · simp [isInvalidString] at h
  · exact num ⟨.double, by simp, by simp, (isDoubleText_iff _).1 h⟩ rfl
  · exact num ⟨.float, by simp, by simp, (isFloatText_iff _).1 h⟩ rfl
  · exact absurd (h.2 '/' (by simp)) (by decide)

theorem not_recognised_quote {r : List Char} (hs : isStringText ('"' :: r) = false) (hi : isInvalidString ('"' :: r) = false) :
    recognise ('"' :: r) = none := by
  by_contra h
  have num : ∀ {t : List Char}, Numeral t → t ≠ '"' :: r := by
    intro t ht heq
    obtain ⟨y, ys, h1, h2⟩ := numeral_head ht
    rw [h1] at heq
    cases (List.cons.inj heq).1
    exact absurd h2 (by decide)
  rcases recognise_cases h with ⟨s, h⟩ | ⟨k, h⟩ | ⟨c, h, hc⟩ | h | h | h | h | h | h | h | h | h
  · obtain ⟨y, ys, h3, -, -, h5, -⟩ := sym_head s
    rw [h3] at h
    exact h5 (List.cons.inj h).1.symm
  · obtain ⟨y, ys, h3, h4⟩ := keyword_head k
    rw [h3] at h
    cases (List.cons.inj h).1
    exact absurd h4 (by decide)
  · cases h; exact absurd hc (by decide)
  · simp [isDocComment] at h
  · simp [isMarkdownComment] at h
  · simp [isBlockComment] at h
  · simp [isLineComment] at h
  · rw [hs] at h; exact nomatch h
  · rw [hi] at h; exact nomatch h
  · exact num ⟨.double, by simp, by simp, (isDoubleText_iff _).1 h⟩ rfl
  · exact num ⟨.float, by simp, by simp, (isFloatText_iff _).1 h⟩ rfl
  · exact absurd (h.2 '"' (by simp)) (by decide)

theorem string_longer {w : List Char} (h : LiteralText .string w) (c : Char) (cs : List Char) : recognise (w ++ c :: cs) = none := by
  have h' := (isStringText_iff w).2 h
  cases h with
  | @string qs hq =>
    refine not_recognised_quote (stringTail_longer _ h' c cs) ?_
    simp only [isInvalidString, Bool.or_eq_false_iff, Bool.and_eq_false_iff]
    refine ⟨?_, Or.inr ?_⟩
    · rw [Bool.eq_false_iff]
      intro hall
      rw [List.all_eq_true] at hall
      exact absurd (hall '"' (by simp)) (by decide)
    · rw [Bool.eq_false_iff]
      intro hall
      rw [List.all_eq_true] at hall
      refine absurd (hall '"' ?_) (by decide)
      show '"' ∈ ((qs.flatten ++ ['"']) ++ (c :: cs)).dropLast
      rw [List.dropLast_append_of_ne_nil (by simp)]
      simp

theorem block_longer {body : List Char} (h : (Piece.block body).Proper) (hb : body ≠ []) (c : Char) (cs : List Char) :
    recognise ((Piece.block body).text ++ c :: cs) = none := by
  have hclose : endsAtClose (body ++ ['*', '/']) = true := (endsAtClose_iff _).2 ⟨body, rfl, h⟩
  have hne : ∀ b : List Char, b ++ ['*', '/'] ≠ ['/'] := by
    intro b hbad
    have := congrArg List.length hbad
    simp at this
  refine not_recognised_slash (by simp; omega) ?_ ?_ ?_ ?_
  · cases body with
    | nil => exact absurd rfl hb
    | cons x b =>
      have := endsAtClose_longer _ (endsAtClose_cons hclose (hne b)) c cs
      simp only [List.cons_append]
      unfold isDocComment
      split
      · next heq => cases heq; exact this
      · rfl
  · cases body with
    | nil => rfl
    | cons x b =>
      have := endsAtClose_longer _ (endsAtClose_cons hclose (hne b)) c cs
      simp only [List.cons_append]
      unfold isMarkdownComment
      split
      · next heq => cases heq; exact this
      · rfl
  · exact endsAtClose_longer _ hclose c cs
  · rfl

theorem line_longer (body : List Char) {c : Char} (hc : c = '\n' ∨ c = '\r' ∨ c = '\x0c') (cs : List Char) :
    recognise ((Piece.line body).text ++ c :: cs) = none := by
  refine not_recognised_slash (by simp; omega) rfl rfl rfl ?_
  show List.all (body ++ c :: cs) (fun c => !isLineEnd c) = false
  rw [Bool.eq_false_iff]
  intro h
  rw [List.all_eq_true] at h
  have := h c (by simp)
  rcases hc with rfl | rfl | rfl <;> exact absurd this (by decide)

/-! ## Every piece is recognised as what it is -/

/-- What kind of literal a text is. -/
def kindOf (t : List Char) : TokenKind :=
  if t = "true".toList ∨ t = "false".toList then .bool
  else if t.head? = some '"' then .string
  else if t[1]? = some 'x' ∨ t[1]? = some 'X' then .hexadecimal
  else if t.getLast? = some 'b' ∨ t.getLast? = some 'B' then .binary
  else if t.getLast? = some 'f' ∨ t.getLast? = some 'F' then .float
  else if t.all Char.isDigit then (if t.head? = some '0' ∧ 1 < t.length then .octal else .decimal)
  else .double

theorem double_chars {t : List Char} (h : LiteralText .double t) : ∀ c ∈ t, c.isDigit = true ∨ c ∈ ['.', 'e', 'E', '+', '-'] := by
  have hexp : ∀ {e : List Char}, ExponentText e → ∀ c ∈ e, c.isDigit = true ∨ c ∈ ['.', 'e', 'E', '+', '-'] := by
    intro e he c hc
    cases he with
    | mk h1 h2 h3 h4 =>
      simp only [List.mem_cons, List.mem_append] at hc
      rcases hc with rfl | hc | hc
      · rcases h1 with rfl | rfl <;> simp
      · rcases h2 with rfl | rfl | rfl <;> simp at hc <;> simp [hc]
      · exact Or.inl (h4 c hc)
  intro c hc
  cases h with
  | double h1 h2 h3 h4 =>
    simp only [List.mem_cons, List.mem_append] at hc
    rcases hc with hc | rfl | hc | hc
    · exact Or.inl (h2 c hc)
    · simp
    · exact Or.inl (h3 c hc)
    · rcases h4 with rfl | h4
      · exact nomatch hc
      · exact hexp h4 c hc
  | doubleWhole h1 h2 h3 =>
    rcases List.mem_append.1 hc with hc | hc
    · exact Or.inl (h2 c hc)
    · exact hexp h3 c hc

theorem double_not_digits {t : List Char} (h : LiteralText .double t) : t.all Char.isDigit = false := by
  rw [Bool.eq_false_iff]
  intro hall
  rw [List.all_eq_true] at hall
  cases h with
  | double h1 h2 h3 h4 => exact absurd (hall '.' (by simp)) (by decide)
  | doubleWhole h1 h2 h3 =>
    cases h3 with
    | @mk e _ _ he => 
      have := hall e (by simp)
      rcases he with rfl | rfl <;> exact absurd this (by decide)

theorem kindOf_numeral {t : List Char} (h : Numeral t) : kindOf t =
    if t[1]? = some 'x' ∨ t[1]? = some 'X' then .hexadecimal
    else if t.getLast? = some 'b' ∨ t.getLast? = some 'B' then .binary
    else if t.getLast? = some 'f' ∨ t.getLast? = some 'F' then .float
    else if t.all Char.isDigit then (if t.head? = some '0' ∧ 1 < t.length then .octal else .decimal)
    else .double := by
  obtain ⟨c, cs, rfl, hc⟩ := numeral_head h
  unfold kindOf
  rw [if_neg, if_neg]
  · rintro ⟨⟩
    exact absurd hc (by decide)
  · rintro (h | h) <;> (cases (List.cons.inj h).1; exact absurd hc (by decide))

theorem noX {t : List Char} (h : 'x' ∉ t ∧ 'X' ∉ t) : ¬ (t[1]? = some 'x' ∨ t[1]? = some 'X') := by
  rintro (h' | h')
  · exact h.1 (List.mem_of_getElem? h')
  · exact h.2 (List.mem_of_getElem? h')

theorem kindOf_digits {t : List Char} (h : Numeral t) (hd : ∀ d ∈ t, d.isDigit = true) :
    kindOf t = if t.head? = some '0' ∧ 1 < t.length then .octal else .decimal := by
  have hl : ∀ l, l.isDigit = false → t.getLast? ≠ some l := by
    intro l hl h
    have := hd l (List.mem_of_getLast? h)
    rw [hl] at this; exact nomatch this
  rw [kindOf_numeral h, if_neg (noX ⟨fun h => absurd (hd _ h) (by decide), fun h => absurd (hd _ h) (by decide)⟩), if_neg, if_neg,
    if_pos (List.all_eq_true.2 hd)]
  · rintro (h | h)
    · exact hl _ (by decide) h
    · exact hl _ (by decide) h
  · rintro (h | h)
    · exact hl _ (by decide) h
    · exact hl _ (by decide) h

theorem kindOf_double {t : List Char} (hd : LiteralText .double t) : kindOf t = .double := by
  have hl : ∀ l, l.isDigit = false → l ≠ '.' → t.getLast? ≠ some l := by
    intro l h1 h2 h
    obtain ⟨init, l', rfl, h3⟩ := double_last hd
    simp at h
    subst h
    rcases h3 with h3 | h3
    · rw [h1] at h3; exact nomatch h3
    · exact h2 h3
  have hx := double_chars hd
  rw [kindOf_numeral ⟨.double, by simp, by simp, hd⟩, if_neg (noX ⟨fun h => absurd (hx _ h) (by decide),
    fun h => absurd (hx _ h) (by decide)⟩), if_neg, if_neg, if_neg]
  · rw [double_not_digits hd]; simp
  · rintro (h | h)
    · exact hl _ (by decide) (by decide) h
    · exact hl _ (by decide) (by decide) h
  · rintro (h | h)
    · exact hl _ (by decide) (by decide) h
    · exact hl _ (by decide) (by decide) h

theorem kindOf_literal {kind : TokenKind} {t : List Char} (h : LiteralText kind t) : kindOf t = kind := by
  have hh := h
  cases h with
  | true => decide
  | false => decide
  | zero => decide
  | @decimal d ds hd h0 hds =>
    rw [kindOf_digits ⟨_, by simp, by simp, hh⟩ (by simpa using ⟨hd, hds⟩), if_neg]
    rintro ⟨h, -⟩
    exact h0 (by simpa using h)
  | @binary ds b hd hds hb =>
    rw [kindOf_numeral ⟨_, by simp, by simp, hh⟩, if_neg, if_pos]
    · rw [List.getLast?_append]; rcases hb with rfl | rfl <;> simp
    · refine noX ⟨?_, ?_⟩ <;>
      · intro h
        rcases List.mem_append.1 h with h | h
        · exact absurd (hds _ h) (by decide)
        · rcases hb with rfl | rfl <;> exact absurd h (by decide)
  | @octal ds hd hds =>
    rw [kindOf_digits ⟨_, by simp, by simp, hh⟩, if_pos]
    · refine ⟨rfl, ?_⟩
      have := List.length_pos_of_ne_nil hd
      simp; omega
    · simp only [List.mem_cons, forall_eq_or_imp]
      exact ⟨by decide, fun d h => octalDigit_digit (hds d h)⟩
  | hexadecimal hx hd hds =>
    rw [kindOf_numeral ⟨_, by simp, by simp, hh⟩, if_pos]
    rcases hx with rfl | rfl <;> simp
  | double => exact kindOf_double hh
  | doubleWhole => exact kindOf_double hh
  | @float t f hd hf =>
    have hx := double_chars hd
    rw [kindOf_numeral ⟨_, by simp, by simp, hh⟩, if_neg, if_neg, if_pos]
    · rw [List.getLast?_append]; rcases hf with rfl | rfl <;> simp
    · rw [List.getLast?_append]; rcases hf with rfl | rfl <;> simp
    · refine noX ⟨?_, ?_⟩ <;>
      · intro h
        rcases List.mem_append.1 h with h | h
        · exact absurd (hx _ h) (by decide)
        · rcases hf with rfl | rfl <;> exact absurd h (by decide)
  | string => rfl

theorem literal_kind {kind kind' : TokenKind} {t : List Char} (h : LiteralText kind t) (hne : kind ≠ kind') :
    ¬ LiteralText kind' t := fun h' => hne ((kindOf_literal h).symm.trans (kindOf_literal h'))

/-- Literals begin with a letter, a digit, a dot or a quote. -/
theorem literal_head {kind : TokenKind} {t : List Char} (h : LiteralText kind t) :
    ∃ c cs, t = c :: cs ∧ (c = 't' ∨ c = 'f' ∨ c.isDigit = true ∨ c = '.' ∨ c = '"') := by
  by_cases hs : kind = .string
  · subst hs; cases h; exact ⟨_, _, rfl, by simp⟩
  by_cases hb : kind = .bool
  · subst hb; cases h
    · exact ⟨'t', _, rfl, Or.inl rfl⟩
    · exact ⟨'f', _, rfl, Or.inr (Or.inl rfl)⟩
  · obtain ⟨c, cs, h1, h2⟩ := numeral_head ⟨kind, hs, hb, h⟩
    exact ⟨c, cs, h1, by tauto⟩

theorem literal_not_hidden {kind : TokenKind} {t : List Char} (h : LiteralText kind t) : ¬ isSpaceText t = true ∧
    ¬ isDocComment t = true ∧ ¬ isMarkdownComment t = true ∧ ¬ isBlockComment t = true ∧ ¬ isLineComment t = true := by
  obtain ⟨c, cs, rfl, hc⟩ := literal_head h
  have hslash : c ≠ '/' := by rintro rfl; exact absurd hc (by decide)
  refine ⟨fun hsp => ?_, fun h => ?_, fun h => ?_, fun h => ?_, fun h => ?_⟩
  · unfold isSpaceText at hsp
    split at hsp
    · next heq =>
      cases heq
      rw [isBlank_iff] at hsp
      simp only [List.mem_cons, List.not_mem_nil, or_false] at hsp
      rcases hsp with rfl | rfl | rfl | rfl | rfl <;> exact absurd hc (by decide)
    · exact nomatch hsp
  · unfold isDocComment at h; split at h
    · next heq => cases heq; exact hslash rfl
    · exact nomatch h
  · unfold isMarkdownComment at h; split at h
    · next heq => cases heq; exact hslash rfl
    · exact nomatch h
  · unfold isBlockComment at h; split at h
    · next heq => cases heq; exact hslash rfl
    · exact nomatch h
  · unfold isLineComment at h; split at h
    · next heq => cases heq; exact hslash rfl
    · exact nomatch h

theorem recognise_literal {kind : TokenKind} {t : List Char} (h : LiteralText kind t) :
    recognise t = some (.token (.literal kind t)) := by
  obtain ⟨n1, n2, n3, n4, n5⟩ := literal_not_hidden h
  rw [recognise_other]
  · have hall : ∀ {b : Bool} (kind' : TokenKind), (b = true ↔ LiteralText kind' t) → b = decide (kind = kind') := by
      intro b kind' hb
      rw [Bool.eq_iff_iff, hb, decide_eq_true_eq]
      exact ⟨fun h' => (kindOf_literal h).symm.trans (kindOf_literal h'), fun h' => h' ▸ h⟩
    simp only [otherRules, List.findSome?_cons, hiddenRule, literalRule, if_neg n1, if_neg n2, if_neg n3, if_neg n4, if_neg n5,
      hall _ (isBoolText_iff t), hall _ (isStringText_iff t), hall _ (isBinaryText_iff t), hall _ (isOctalText_iff t),
      hall _ (isHexText_iff t), hall _ (isDoubleText_iff t), hall _ (isFloatText_iff t), hall _ (isDecimalText_iff t)]
    cases kind <;> simp
  · rintro s rfl
    by_cases hk : Numeral s.text
    · obtain ⟨c, cs, h1, h2⟩ := numeral_head hk
      obtain ⟨y, ys, h3, h4, -⟩ := sym_head s
      rw [h3] at h1
      cases (List.cons.inj h1).1
      rcases h2 with h2 | rfl
      · rw [isDigit_isIdChar h2] at h4; exact nomatch h4
      · have hs : s = .dot := by cases s <;> simp [Punct.text] at h3 ⊢
        subst hs
        have := kindOf_literal h
        have hkd : kind = .double := by rw [← this]; decide
        subst hkd
        obtain ⟨d, r', h5, -⟩ := double_dot h rfl
        exact nomatch h5
    · obtain ⟨y, ys, h3, h4, -, h5, -⟩ := sym_head s
      by_cases hs : kind = .string
      · subst hs
        rw [h3] at h
        cases h
        exact h5 rfl
      by_cases hb : kind = .bool
      · subst hb
        rw [h3] at h
        cases h <;> exact absurd h4 (by decide)
      · exact hk ⟨kind, hs, hb, h⟩
  · rintro k rfl
    obtain ⟨y, ys, h1, h2⟩ := keyword_head k
    obtain ⟨c, cs, h3, h4⟩ := literal_head h
    rw [h3] at h1
    cases h1
    by_cases hb : kind = .bool
    · subst hb
      have := (isBoolText_iff _).2 h
      cases k <;> exact absurd this (by decide)
    · by_cases hs : kind = .string
      · subst hs
        rw [h3] at h
        cases h
        exact absurd h2 (by decide)
      · obtain ⟨c', cs', h5, h6⟩ := numeral_head ⟨kind, hs, hb, h⟩
        rw [h3] at h5
        cases h5
        rcases h6 with h6 | rfl
        · rcases h2 with h2 | rfl
          · rw [isDigit_not_start h6] at h2; exact nomatch h2
          · exact absurd h6 (by decide)
        · exact absurd h2 (by decide)

theorem recognise_name {name : Ident} (h : (Token.id name).Proper) : recognise name.text = some (.token (.id name)) := by
  obtain ⟨hk, ht, hf⟩ := h
  obtain ⟨t, hid⟩ := name
  simp only at hk ht hf ⊢
  have hw := idText_word hid
  have hhead : ∃ c cs, t = c :: cs ∧ isIdStart c = true := by
    unfold isIdText at hid
    split at hid
    · exact nomatch hid
    · next c cs => exact ⟨c, cs, rfl, by simp at hid; exact hid.1⟩
  obtain ⟨c, cs, rfl, hc⟩ := hhead
  have hcc : isIdChar c = true := hw.2 c (by simp)
  have num : ¬ Numeral (c :: cs) := by
    intro ht
    obtain ⟨y, ys, h1, h2⟩ := numeral_head ht
    cases h1
    rcases h2 with h2 | rfl
    · rw [isDigit_not_start h2] at hc; exact nomatch hc
    · exact absurd hc (by decide)
  have lit : ∀ kind, ¬ LiteralText kind (c :: cs) := by
    intro kind h
    by_cases hs : kind = .string
    · subst hs; cases h; exact absurd hc (by decide)
    by_cases hb : kind = .bool
    · subst hb
      have := (isBoolText_iff _).2 h
      simp only [isBoolText, Bool.or_eq_true, beq_iff_eq] at this
      rcases this with h | h
      · exact ht h
      · exact hf h
    · exact num ⟨kind, hs, hb, h⟩
  have hslash : c ≠ '/' := by rintro rfl; exact absurd hc (by decide)
  rw [recognise_other _ hk]
  · have n1 : ¬ isSpaceText (c :: cs) = true := by
      intro h
      unfold isSpaceText at h
      split at h
      · next heq =>
        cases heq
        rw [isBlank_iff] at h
        simp only [List.mem_cons, List.not_mem_nil, or_false] at h
        rcases h with rfl | rfl | rfl | rfl | rfl <;> exact absurd hc (by decide)
      · exact nomatch h
    have n2 : ¬ isDocComment (c :: cs) = true := by
      intro h; unfold isDocComment at h; split at h
      · next heq => cases heq; exact hslash rfl
      · exact nomatch h
    have n3 : ¬ isMarkdownComment (c :: cs) = true := by
      intro h; unfold isMarkdownComment at h; split at h
      · next heq => cases heq; exact hslash rfl
      · exact nomatch h
    have n4 : ¬ isBlockComment (c :: cs) = true := by
      intro h; unfold isBlockComment at h; split at h
      · next heq => cases heq; exact hslash rfl
      · exact nomatch h
    have n5 : ¬ isLineComment (c :: cs) = true := by
      intro h; unfold isLineComment at h; split at h
      · next heq => cases heq; exact hslash rfl
      · exact nomatch h
    have hall : ∀ {b : Bool} (kind' : TokenKind), (b = true ↔ LiteralText kind' (c :: cs)) → b = false := by
      intro b kind' hb
      rw [Bool.eq_false_iff]
      exact fun h => lit kind' (hb.1 h)
    simp only [otherRules, List.findSome?_cons, hiddenRule, literalRule, if_neg n1, if_neg n2, if_neg n3, if_neg n4, if_neg n5,
      hall _ (isBoolText_iff _), hall _ (isStringText_iff _), hall _ (isBinaryText_iff _), hall _ (isOctalText_iff _),
      hall _ (isHexText_iff _), hall _ (isDoubleText_iff _), hall _ (isFloatText_iff _), hall _ (isDecimalText_iff _),
      Bool.false_eq_true, if_false, idRule, dif_pos hid]
  · intro s heq
    obtain ⟨y, ys, h1, h2, -⟩ := sym_head s
    rw [h1] at heq
    cases heq
    rw [hcc] at h2; exact nomatch h2

theorem recognise_hidden {t : List Char} (h : isSpaceText t = true ∨ isDocComment t = true ∨ isMarkdownComment t = true ∨
    isBlockComment t = true ∨ isLineComment t = true) : recognise t = some .hidden := by
  rw [recognise_other]
  · simp only [otherRules, List.findSome?_cons, hiddenRule]
    by_cases n1 : isSpaceText t = true
    · rw [if_pos n1]
    rw [if_neg n1]
    by_cases n2 : isDocComment t = true
    · rw [if_pos n2]
    rw [if_neg n2]
    by_cases n3 : isMarkdownComment t = true
    · rw [if_pos n3]
    rw [if_neg n3]
    by_cases n4 : isBlockComment t = true
    · rw [if_pos n4]
    rw [if_neg n4]
    by_cases n5 : isLineComment t = true
    · rw [if_pos n5]
    · tauto
  · rintro s rfl
    revert h
    cases s <;> decide
  · rintro k rfl
    revert h
    cases k <;> decide

/-- What a piece is for the parser. -/
def Piece.lexeme : Piece → Lexeme
  | .token t => .token t
  | _ => .hidden

theorem recognise_piece {p : Piece} (h : p.Proper) : recognise p.text = some p.lexeme := by
  cases p with
  | token t =>
    cases t with
    | sym s => exact recognise_sym s
    | keyword k => exact recognise_keyword k
    | literal kind t => exact recognise_literal h
    | id name => exact recognise_name h
    | invalidString => exact nomatch h
    | invalidToken => exact nomatch h
  | space c => exact recognise_hidden (Or.inl ((isBlank_iff c).2 h))
  | block body => exact recognise_hidden (Or.inr (Or.inr (Or.inr (Or.inl ((endsAtClose_iff _).2 ⟨body, rfl, h⟩)))))
  | line body =>
    refine recognise_hidden (Or.inr (Or.inr (Or.inr (Or.inr ?_))))
    show body.all (fun c => !isLineEnd c) = true
    rw [List.all_eq_true]
    intro c hc
    have := h c hc
    simp [isLineEnd, this]

theorem piece_longer {p : Piece} {c : Char} {cs : List Char} {after : List Char} (h : p.Proper) (hb : p.Before (c :: after))
    (hne : p ≠ .block []) : recognise (p.text ++ c :: cs) = none := by
  cases p with
  | token t =>
    simp only [Piece.Before] at hb
    cases t with
    | sym s => exact sym_longer hb cs
    | keyword k => exact keyword_longer (by simpa [mayTouch] using hb) cs
    | literal kind t =>
      by_cases hs : kind = .string
      · subst hs; exact string_longer h c cs
      by_cases hbo : kind = .bool
      · subst hbo
        refine word_longer ?_ (by simpa [mayTouch] using hb) cs
        have := (isBoolText_iff t).2 h
        simp only [isBoolText, Bool.or_eq_true, beq_iff_eq] at this
        rcases this with h | h <;> (simp only [Piece.text, Token.text]; rw [h]; decide)
      · have : isIdChar c = false ∧ c ≠ '.' := by
          cases kind <;> simp [mayTouch] at hb hs hbo <;> exact hb
        exact numeral_longer ⟨kind, hs, hbo, h⟩ this.1 this.2 cs
    | id name => exact word_longer name.2 (by simpa [mayTouch] using hb) cs
    | invalidString => exact nomatch h
    | invalidToken => exact nomatch h
  | space x => exact space_longer ((isBlank_iff x).2 h) c cs
  | block body => exact block_longer h (fun h => hne (by rw [h])) c cs
  | line body => exact line_longer body hb cs

/-! ## Lexing -/

theorem longest_eq {w : List Char} {l : Lexeme} (hw : recognise w = some l) (hne : w ≠ []) (rest : List Char)
    (hlong : ∀ c cs after, rest = c :: cs ++ after → recognise (w ++ c :: cs) = none) :
    ∀ k, longest (w ++ rest) (w.length + k) = some (l, rest) ∨ rest.length < k
  | 0 => by
    left
    obtain ⟨n, hn⟩ : ∃ n, w.length = n + 1 := ⟨w.length - 1, by have := List.length_pos_of_ne_nil hne; omega⟩
    rw [Nat.add_zero, hn, longest, ← hn, List.take_left, hw]
    simp
  | k + 1 => by
    by_cases hk : rest.length < k + 1
    · exact Or.inr hk
    rcases longest_eq hw hne rest hlong k with ih | ih
    · left
      rw [← Nat.add_assoc, longest]
      have : List.take (w.length + k + 1) (w ++ rest) = w ++ rest.take (k + 1) := by
        rw [Nat.add_assoc, List.take_append, List.take_of_length_le (by omega)]
        congr 2; omega
      rw [this]
      cases hrest : rest.take (k + 1) with
      | nil => simp at hrest; rw [hrest] at hk; simp at hk
      | cons c cs =>
        rw [hlong c cs (rest.drop (k + 1)) (by rw [← hrest, List.take_append_drop])]
        exact ih
    · omega

theorem piece_text_ne (p : Piece) (h : p.Proper) : p.text ≠ [] := by
  intro hn
  have := recognise_piece h
  rw [hn] at this
  revert this
  show recognise [] = _ → False
  rw [show recognise [] = none from by decide]
  exact nofun

theorem lexLoop_pieces : ∀ (ps : List Piece), PiecesFit ps → (∀ p ∈ ps, p ≠ .block []) → ∀ n, (piecesText ps).length ≤ n →
    lexLoop n (piecesText ps) = some (pieceTokens ps)
  | [], _, _, n, _ => by cases n <;> rfl
  | p :: ps, hfit, hne, n, hn => by
    obtain ⟨hp, hb, hfit⟩ := hfit
    have hnil := piece_text_ne p hp
    have hlong := longest_eq (recognise_piece hp) hnil (piecesText ps) (by
      intro c cs after heq
      rw [heq] at hb
      exact piece_longer hp hb (hne p (by simp))) (piecesText ps).length
    rcases hlong with hlong | h
    · simp only [piecesText, List.length_append] at hn ⊢
      obtain ⟨c, cs, hc⟩ : ∃ c cs, p.text ++ piecesText ps = c :: cs := by
        cases h : p.text with
        | nil => exact absurd h hnil
        | cons c cs => exact ⟨c, _, rfl⟩
      have hpos := List.length_pos_of_ne_nil hnil
      obtain ⟨n, rfl⟩ : ∃ m, n = m + 1 := ⟨n - 1, by omega⟩
      have ih := lexLoop_pieces ps hfit (fun p hp => hne p (by simp [hp])) n (by omega)
      have hlen : p.text.length + (piecesText ps).length = cs.length + 1 := by
        rw [← List.length_append, hc]; rfl
      rw [hc, hlen] at hlong
      rw [hc, lexLoop, hlong]
      show (do let ts ← lexLoop n (piecesText ps); _) = _
      rw [ih]
      cases p <;> rfl
    · omega

/-- Words of digits and letters that begin with a digit and are no number, and strings that are not well formed: lexed, but of
no use to the parser. -/
def Token.Invalid : Token → Prop
  | .invalidString _ => True
  | .invalidToken _ => True
  | _ => False

/-- A comment that begins with `/**/` and goes on. -/
def Piece.Swallows (p : Piece) : Prop := ∃ body, p = .block ('*' :: '/' :: body)

theorem close_cons {x : Char} {b : List Char} (h : endsAtClose (b ++ ['*', '/']) = true) (hx : x ≠ '*' ∨ b.head? ≠ some '/') :
    endsAtClose (x :: (b ++ ['*', '/'])) = true := by
  unfold endsAtClose
  split
  · next heq => exact nomatch heq
  · next heq =>
    cases b with
    | nil => cases heq
    | cons y ys =>
      cases heq
      simp at hx
  · next heq => cases heq; exact h

theorem hidden_piece {t : List Char} (h : isSpaceText t = true ∨ isDocComment t = true ∨ isMarkdownComment t = true ∨
    isBlockComment t = true ∨ isLineComment t = true) :
    ∃ p : Piece, p.text = t ∧ p.lexeme = .hidden ∧ (p.Proper ∨ p.Swallows) := by
  have block : ∀ r, endsAtClose r = true → ∃ p : Piece, p.text = '/' :: '*' :: r ∧ p.lexeme = .hidden ∧ (p.Proper ∨ p.Swallows) := by
    intro r hr
    obtain ⟨body, rfl, hb⟩ := (endsAtClose_iff r).1 hr
    exact ⟨.block body, rfl, rfl, Or.inl hb⟩
  rcases h with h | h | h | h | h
  · unfold isSpaceText at h
    split at h
    · exact ⟨.space _, rfl, rfl, Or.inl ((isBlank_iff _).1 h)⟩
    · exact nomatch h
  · unfold isDocComment at h
    split at h
    · next rest =>
      obtain ⟨b, rfl, hb⟩ := (endsAtClose_iff rest).1 h
      by_cases hs : b.head? = some '/'
      · cases b with
        | nil => exact nomatch hs
        | cons y ys =>
          cases hs
          exact ⟨.block ('*' :: '/' :: ys), rfl, rfl, Or.inr ⟨ys, rfl⟩⟩
      · exact block _ (close_cons h (Or.inr hs))
    · exact nomatch h
  · unfold isMarkdownComment at h
    split at h
    · next rest =>
      obtain ⟨b, rfl, hb⟩ := (endsAtClose_iff rest).1 h
      exact block _ (close_cons h (Or.inl (by decide)))
    · exact nomatch h
  · unfold isBlockComment at h
    split at h
    · exact block _ h
    · exact nomatch h
  · unfold isLineComment at h
    split at h
    · next rest =>
      refine ⟨.line rest, rfl, rfl, Or.inl ?_⟩
      intro c hc
      have := List.all_eq_true.1 h c hc
      simpa [isLineEnd, and_assoc, and_comm, and_left_comm] using this
    · exact nomatch h

/-- Nothing but pieces is recognised. -/
theorem recognise_inv {t : List Char} {l : Lexeme} (h : recognise t = some l) :
    ∃ p : Piece, p.text = t ∧ p.lexeme = l ∧ (p.Proper ∨ p.Swallows ∨ ∃ tok, p = .token tok ∧ tok.Invalid) := by
  by_cases hs : ∃ s : Punct, t = s.text
  · obtain ⟨s, rfl⟩ := hs
    rw [recognise_sym] at h
    cases h
    exact ⟨.token (.sym s), rfl, rfl, Or.inl trivial⟩
  by_cases hk : ∃ k : Keyword, t = k.text
  · obtain ⟨k, rfl⟩ := hk
    rw [recognise_keyword] at h
    cases h
    exact ⟨.token (.keyword k), rfl, rfl, Or.inl trivial⟩
  by_cases hlit : ∃ kind, LiteralText kind t
  · obtain ⟨kind, hlit⟩ := hlit
    rw [recognise_literal hlit] at h
    cases h
    exact ⟨.token (.literal kind t), rfl, rfl, Or.inl hlit⟩
  by_cases hh : isSpaceText t = true ∨ isDocComment t = true ∨ isMarkdownComment t = true ∨ isBlockComment t = true ∨
      isLineComment t = true
  · rw [recognise_hidden hh] at h
    cases h
    obtain ⟨p, h1, h2, h3⟩ := hidden_piece hh
    exact ⟨p, h1, h2, h3.imp id Or.inl⟩
  by_cases hid : isIdText t = true
  · have hp : (Token.id ⟨t, hid⟩).Proper :=
      ⟨fun k hk' => hk ⟨k, hk'⟩, fun ht => hlit ⟨.bool, (isBoolText_iff t).1 (by simp only at ht; rw [ht]; rfl)⟩,
        fun ht => hlit ⟨.bool, (isBoolText_iff t).1 (by simp only at ht; rw [ht]; rfl)⟩⟩
    have := recognise_name hp
    simp only at this
    rw [this] at h
    cases h
    exact ⟨.token (.id ⟨t, hid⟩), rfl, rfl, Or.inl hp⟩
  rw [recognise_other (fun s h => hs ⟨s, h⟩) (fun k h => hk ⟨k, h⟩)] at h
  simp only [not_or] at hh
  obtain ⟨n1, n2, n3, n4, n5⟩ := hh
  have hall : ∀ {b : Bool} (kind' : TokenKind), (b = true ↔ LiteralText kind' t) → b = false := by
    intro b kind' hb
    rw [Bool.eq_false_iff]
    exact fun h => hlit ⟨kind', hb.1 h⟩
  simp only [otherRules, List.findSome?_cons, List.findSome?_nil, hiddenRule, literalRule, if_neg n1, if_neg n2, if_neg n3, if_neg n4, if_neg n5,
      hall _ (isBoolText_iff t), hall _ (isStringText_iff t), hall _ (isBinaryText_iff t), hall _ (isOctalText_iff t),
      hall _ (isHexText_iff t), hall _ (isDoubleText_iff t), hall _ (isFloatText_iff t), hall _ (isDecimalText_iff t),
      Bool.false_eq_true, if_false, idRule, dif_neg hid] at h
  by_cases hi : isInvalidString t = true
  · rw [if_pos hi] at h
    cases h
    exact ⟨.token (.invalidString t), rfl, rfl, Or.inr (Or.inr ⟨_, rfl, trivial⟩)⟩
  rw [if_neg hi] at h
  by_cases hi : isInvalidToken t = true
  · rw [if_pos hi] at h
    cases h
    exact ⟨.token (.invalidToken t), rfl, rfl, Or.inr (Or.inr ⟨_, rfl, trivial⟩)⟩
  rw [if_neg hi] at h
  exact nomatch h

theorem longest_inv {s rest : List Char} {l : Lexeme} : ∀ {n : Nat}, longest s n = some (l, rest) →
    ∃ w, s = w ++ rest ∧ recognise w = some l
  | 0, h => nomatch h
  | n + 1, h => by
    rw [longest] at h
    split at h
    · next heq =>
      cases h
      exact ⟨s.take (n + 1), (List.take_append_drop _ _).symm, heq⟩
    · exact longest_inv h

theorem lexLoop_inv : ∀ (n : Nat) (s : List Char) (ts : List Token), lexLoop n s = some ts →
    ∃ ps : List Piece, piecesText ps = s ∧ pieceTokens ps = ts ∧
      ∀ p ∈ ps, p.Proper ∨ p.Swallows ∨ ∃ tok, p = .token tok ∧ tok.Invalid
  | n, [], ts, h => by
    have : ts = [] := by cases n <;> (cases h; rfl)
    subst this
    exact ⟨[], rfl, rfl, by simp⟩
  | 0, c :: cs, ts, h => nomatch h
  | n + 1, c :: cs, ts, h => by
    rw [lexLoop] at h
    obtain ⟨⟨l, rest⟩, h1, h2⟩ := Option.bind_eq_some_iff.1 h
    obtain ⟨ts', h3, h4⟩ := Option.bind_eq_some_iff.1 h2
    obtain ⟨w, hw, hr⟩ := longest_inv h1
    obtain ⟨p, rfl, rfl, hp⟩ := recognise_inv hr
    obtain ⟨ps, g1, g2, g3⟩ := lexLoop_inv n rest ts' h3
    refine ⟨p :: ps, by rw [hw, ← g1]; rfl, ?_, ?_⟩
    · cases h4
      rw [← g2]
      cases p <;> rfl
    · simpa using ⟨hp, g3⟩

/-! ## The theorems -/

/-- **C82**: lexing a text that is made of operators, keywords, names, literals, white space and comments gives the tokens in it,
in order, whatever the white space and the comments are; `partial` because of the empty comment `/**/`. -/
theorem C82_tokens_partial {ps : List Piece} (h : PiecesFit ps) (hne : ∀ p ∈ ps, p ≠ .block []) :
    lex (piecesText ps) = some (pieceTokens ps) := lexLoop_pieces ps h hne _ (Nat.le_refl _)

/-- **C82**: if a text lexes and nothing in it is marked invalid, then it is made of the tokens, of white space and of comments:
nothing is left out and nothing is added.  The comments include those that begin with `/**/`. -/
theorem C82_source {s : List Char} {ts : List Token} (h : lex s = some ts) (hv : ∀ t ∈ ts, ¬ t.Invalid) :
    ∃ ps : List Piece, piecesText ps = s ∧ pieceTokens ps = ts ∧ ∀ p ∈ ps, p.Proper ∨ p.Swallows := by
  obtain ⟨ps, h1, h2, h3⟩ := lexLoop_inv _ _ _ h
  refine ⟨ps, h1, h2, fun p hp => ?_⟩
  rcases h3 p hp with h | h | ⟨tok, rfl, ht⟩
  · exact Or.inl h
  · exact Or.inr h
  · refine absurd ht (hv tok ?_)
    rw [← h2]
    clear h1 h2 h3
    induction ps with
    | nil => exact nomatch hp
    | cons q qs ih =>
      rcases List.mem_cons.1 hp with rfl | hp'
      · simp [pieceTokens]
      · cases q <;> simp [pieceTokens, ih hp']

/-- **C82**: a text says one thing: however it is taken apart, the tokens are the same. -/
theorem C82_unique {ps qs : List Piece} (hp : PiecesFit ps) (hq : PiecesFit qs) (hpne : ∀ p ∈ ps, p ≠ .block [])
    (hqne : ∀ p ∈ qs, p ≠ .block []) (h : piecesText ps = piecesText qs) : pieceTokens ps = pieceTokens qs :=
  Option.some.inj ((C82_tokens_partial hp hpne).symm.trans (h ▸ C82_tokens_partial hq hqne))

/-- `/**/ a /* b */` -/
def exSwallow : List Piece :=
  [.block [], .space ' ', .token (.id ⟨['a'], rfl⟩), .space ' ', .block " b ".toList]

/-- **C82** does not hold of empty comments: behind `/**/`, everything up to the next `*/` is part of the comment. -/
theorem C82_violated_comment : PiecesFit exSwallow ∧ pieceTokens exSwallow = [.id ⟨['a'], rfl⟩] ∧
    lex (piecesText exSwallow) = some [] := by
  refine ⟨?_, rfl, by decide⟩
  refine ⟨?_, trivial, by simp [Piece.Proper], trivial, ⟨fun k => ?_, by decide, by decide⟩, rfl, by simp [Piece.Proper], trivial, ?_,
    trivial, trivial⟩
  · intro before after h
    have := (endsAtClose_iff ['*', '/']).1 rfl
    obtain ⟨_, _, h'⟩ := this
    exact h' before after h
  · cases k <;> decide
  · intro before after h
    have := (endsAtClose_iff [' ', 'b', ' ', '*', '/']).1 rfl
    obtain ⟨_, _, h'⟩ := this
    exact h' before after h

/-- **C82** with **C81**: an expression that is written with any white space and comments between its tokens is read as that
expression. -/
theorem C82_expression_partial {e : CExpr} (hg : e.Grouped) {ps : List Piece} (hfit : PiecesFit ps) (hne : ∀ p ∈ ps, p ≠ .block [])
    (ht : pieceTokens ps = e.tokens) : (lex (piecesText ps)).bind parseExpression = some (e, []) := by
  rw [C82_tokens_partial hfit hne, ht]
  have := C81_reads e hg [] trivial
  rwa [List.append_nil] at this

/-! ## A case -/

/-- `structure=0x1F;/* ;*/"\"";// x` and the end of the line: the name begins with a keyword. -/
def exPieces : List Piece :=
  [.token (.id ⟨"structure".toList, by decide⟩), .token (.sym .assign), .token (.literal .hexadecimal "0x1F".toList),
    .token (.sym .semicolon), .block " ;".toList, .token (.literal .string "\"\\\"\"".toList), .token (.sym .semicolon),
    .line " x".toList, .space '\n']

example : piecesText exPieces = "structure=0x1F;/* ;*/\"\\\"\";// x\n".toList := by decide

example : PiecesFit exPieces ∧ ∀ p ∈ exPieces, p ≠ .block [] := by
  refine ⟨⟨⟨fun k => ?_, by decide, by decide⟩, rfl, trivial, rfl, (isHexText_iff _).1 (by decide), rfl, trivial, rfl, ?_, trivial,
    (isStringText_iff _).1 (by decide), rfl, trivial, rfl, by simp [Piece.Proper], Or.inl rfl, by simp [Piece.Proper], trivial, trivial⟩,
    by simp [exPieces]⟩
  · cases k <;> decide
  · intro before after h
    obtain ⟨_, _, h'⟩ := (endsAtClose_iff [' ', ';', '*', '/']).1 rfl
    exact h' before after h

example : lex (piecesText exPieces) = some (pieceTokens exPieces) := by decide

/-- Two names need something between them. -/
example : lex "ab".toList ≠ some [.id ⟨['a'], rfl⟩, .id ⟨['b'], rfl⟩] ∧
    lex "a/**\n*/b".toList = some [.id ⟨['a'], rfl⟩, .id ⟨['b'], rfl⟩] := by decide

end Verif
