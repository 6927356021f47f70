import Verif.Strip
import Verif.Props.Files

/-!
# C41, C54: stripping of imports
-/

namespace Verif

/-! ## Text functions -/

theorem cutBefore_some {sub s a b : Text} (h : cutBefore sub s = some (a, b)) : s = a ++ b ∧ sub <+: b := by
  induction s generalizing a b with
  | nil =>
    simp only [cutBefore] at h
    split at h
    · rename_i hp
      injection h with h; injection h with h1 h2; subst h1; subst h2
      exact ⟨rfl, by simpa using hp⟩
    · cases h
  | cons c s ih =>
    simp only [cutBefore] at h
    split at h
    · rename_i hp
      injection h with h; injection h with h1 h2; subst h1; subst h2
      exact ⟨rfl, List.isPrefixOf_iff_prefix.mp hp⟩
    · cases hs : cutBefore sub s with
      | none => rw [hs] at h; cases h
      | some r =>
        obtain ⟨x, y⟩ := r
        rw [hs] at h
        injection h with h; injection h with h1 h2; subst h1; subst h2
        obtain ⟨e1, e2⟩ := ih hs
        exact ⟨by rw [e1]; rfl, e2⟩

theorem cutBefore_none {sub s : Text} (h : cutBefore sub s = none) : ¬ sub <:+: s := by
  induction s with
  | nil =>
    simp only [cutBefore] at h
    split at h
    · cases h
    · rename_i hp
      intro hc
      apply hp
      rw [List.isPrefixOf_iff_prefix]
      obtain ⟨x, y, e⟩ := hc
      have : sub = [] := by
        have := congrArg List.length e
        simp only [List.length_append, List.length_nil] at this
        exact List.length_eq_zero_iff.mp (by omega)
      rw [this]
      exact List.nil_prefix
  | cons c s ih =>
    simp only [cutBefore] at h
    split at h
    · cases h
    · rename_i hp
      cases hs : cutBefore sub s with
      | some r => obtain ⟨x, y⟩ := r; rw [hs] at h; cases h
      | none =>
        rintro hc
        rcases List.infix_cons_iff.mp hc with hc | hc
        · exact hp (List.isPrefixOf_iff_prefix.mpr hc)
        · exact ih hs hc

theorem containsText_iff (sub s : Text) : containsText sub s = true ↔ sub <:+: s := by
  unfold containsText
  cases h : cutBefore sub s with
  | none => simpa using cutBefore_none h
  | some r =>
    obtain ⟨a, b⟩ := r
    obtain ⟨e, hp⟩ := cutBefore_some h
    simp only [Option.isSome_some, true_iff]
    rw [e]
    exact hp.isInfix.trans (List.suffix_append a b).isInfix

/-- The first occurrence is found. -/
theorem cutBefore_first (c : Char) (a b : Text) (h : c ∉ a) : cutBefore [c] (a ++ c :: b) = some (a, c :: b) := by
  induction a with
  | nil => simp [cutBefore, List.isPrefixOf]
  | cons d a ih =>
    have hd : c ≠ d := fun hc => h (by simp [hc])
    have := ih fun hc => h (by simp [hc])
    simp [cutBefore, List.isPrefixOf, hd, this]

theorem cutBefore_sub (sub pre rest : Text) (hne : sub ≠ []) (h : ¬ sub <:+: pre ++ sub.dropLast) :
    cutBefore sub (pre ++ (sub ++ rest)) = some (pre, sub ++ rest) := by
  induction pre with
  | nil =>
    cases sub with
    | nil => exact absurd rfl hne
    | cons c sub =>
      have hp : List.isPrefixOf (c :: sub) (c :: (sub ++ rest)) = true :=
        List.isPrefixOf_iff_prefix.mpr (List.prefix_append (c :: sub) rest)
      simp only [List.nil_append, List.cons_append, cutBefore, hp, if_true]
  | cons c pre ih =>
    have hp : ¬ List.isPrefixOf sub (c :: (pre ++ (sub ++ rest))) = true := by
      intro hc
      rw [List.isPrefixOf_iff_prefix] at hc
      apply h
      have h2 : c :: pre ++ sub.dropLast <+: c :: (pre ++ (sub ++ rest)) := by
        have h3 : sub.dropLast <+: sub ++ rest := (List.dropLast_prefix sub).trans (List.prefix_append sub rest)
        exact List.prefix_append_right_inj (c :: pre) |>.mpr h3
      exact (List.prefix_of_prefix_length_le hc h2 (by simp; omega)).isInfix
    have hi := ih fun hc => h (hc.trans (List.suffix_cons c _).isInfix)
    simp only [List.cons_append, cutBefore, hp, hi]
    rfl

theorem splitLines_ne_nil (s : Text) : splitLines s ≠ [] := by
  cases s with
  | nil => simp [splitLines]
  | cons c s =>
    simp only [splitLines]
    split
    · simp
    · split <;> simp

theorem join_split (s : Text) : joinLines (splitLines s) = s := by
  induction s with
  | nil => rfl
  | cons c s ih =>
    simp only [splitLines]
    split
    · rename_i hc
      subst hc
      cases h : splitLines s with
      | nil => exact absurd h (splitLines_ne_nil s)
      | cons l ls => rw [h] at ih; simp [joinLines, ih]
    · cases h : splitLines s with
      | nil => exact absurd h (splitLines_ne_nil s)
      | cons l ls =>
        rw [h] at ih
        cases ls with
        | nil => simp only [joinLines] at ih ⊢; rw [ih]
        | cons m ms => simp only [joinLines] at ih ⊢; rw [← ih]; rfl

theorem splitLines_no_newline (s : Text) : ∀ l ∈ splitLines s, '\n' ∉ l := by
  induction s with
  | nil => simp [splitLines]
  | cons c s ih =>
    simp only [splitLines]
    split
    · intro l hl
      rcases List.mem_cons.mp hl with rfl | hl
      · simp
      · exact ih l hl
    · rename_i hc
      cases h : splitLines s with
      | nil => exact absurd h (splitLines_ne_nil s)
      | cons m ms =>
        rw [h] at ih
        intro l hl
        rcases List.mem_cons.mp hl with rfl | hl
        · intro hm
          rcases List.mem_cons.mp hm with hm | hm
          · exact hc hm.symm
          · exact ih m (by simp) hm
        · exact ih l (by simp [hl])

theorem split_line (l r : Text) (h : '\n' ∉ l) : splitLines (l ++ '\n' :: r) = l :: splitLines r := by
  induction l with
  | nil => simp [splitLines]
  | cons c l ih =>
    have hc : c ≠ '\n' := fun hc => h (by simp [hc])
    have := ih fun hm => h (by simp [hm])
    simp [splitLines, hc, this]

theorem split_single (l : Text) (h : '\n' ∉ l) : splitLines l = [l] := by
  induction l with
  | nil => rfl
  | cons c l ih =>
    have hc : c ≠ '\n' := fun hc => h (by simp [hc])
    have := ih fun hm => h (by simp [hm])
    simp [splitLines, hc, this]

theorem split_join (ls : List Text) (hne : ls ≠ []) (h : ∀ l ∈ ls, '\n' ∉ l) : splitLines (joinLines ls) = ls := by
  induction ls with
  | nil => exact absurd rfl hne
  | cons l ls ih =>
    cases ls with
    | nil => exact split_single l (h l (by simp))
    | cons m ms =>
      simp only [joinLines]
      rw [split_line _ _ (h l (by simp)), ih (by simp) fun x hx => h x (by simp [hx])]

theorem usedImports_spec (content : Text) (ls used : List Text) (h : usedImports content ls = some used) :
    used.Sublist ls ∧ (∀ l ∈ ls, keepImport content l ≠ none) ∧
      used = ls.filter fun l => keepImport content l = some true := by
  induction ls generalizing used with
  | nil => simp only [usedImports] at h; cases h; simp
  | cons l ls ih =>
    simp only [usedImports] at h
    cases hk : keepImport content l with
    | none => rw [hk] at h; cases h
    | some k =>
      cases hu : usedImports content ls with
      | none => rw [hk, hu] at h; cases h
      | some r =>
        rw [hk, hu] at h
        injection h with h
        obtain ⟨h1, h2, h3⟩ := ih r hu
        refine ⟨?_, ?_, ?_⟩
        · subst h; cases k
          · exact h1.cons l
          · exact h1.cons_cons l
        · intro x hx
          rcases List.mem_cons.mp hx with rfl | hx
          · simp [hk]
          · exact h2 x hx
        · subst h; cases k
          · simp [hk, h3]
          · simp [hk, h3]

/-! ## C41 -/

/-- C41: a text without an import block is not changed. -/
theorem C41_no_imports (code : Text) (h : ¬ "import (".toList <:+: code) : stripImports code = some code := by
  unfold stripImports
  cases hc : cutBefore "import (".toList code with
  | none => rfl
  | some r =>
    obtain ⟨a, b⟩ := r
    obtain ⟨e, hp⟩ := cutBefore_some hc
    exact absurd (by rw [e]; exact hp.isInfix.trans (List.suffix_append a b).isInfix) h

/-- C41: nothing outside the block between the first `import (` and the next `)` changes, and inside only whole lines are
removed. -/
theorem C41_only_lines_removed (code out : Text) (h : stripImports code = some out) :
    out = code ∨ ∃ pre sec sec' post, code = pre ++ "import (".toList ++ sec ++ ')' :: post ∧
      out = pre ++ "import (".toList ++ sec' ++ ')' :: post ∧
      ∃ ls ls', sec = joinLines ls ∧ sec' = joinLines ls' ∧ (∀ l ∈ ls, '\n' ∉ l) ∧ ls'.Sublist ls := by
  unfold stripImports at h
  cases hc : cutBefore "import (".toList code with
  | none => rw [hc] at h; injection h with h; exact .inl h.symm
  | some r =>
    obtain ⟨a, b⟩ := r
    rw [hc] at h
    dsimp only at h
    obtain ⟨e, t, ht⟩ := cutBefore_some hc
    have hdrop : b.drop 8 = t := by rw [← ht]; rfl
    rw [hdrop] at h
    cases hc2 : cutBefore [')'] t with
    | none => rw [hc2] at h; cases h
    | some r =>
      obtain ⟨sec, content⟩ := r
      rw [hc2] at h
      dsimp only at h
      obtain ⟨e2, u, hu⟩ := cutBefore_some hc2
      cases h3 : usedImports content (splitLines sec) with
      | none => rw [h3] at h; cases h
      | some used =>
        rw [h3] at h
        injection h with h
        right
        refine ⟨a, sec, joinLines used, u, ?_, ?_, splitLines sec, used, (join_split sec).symm, rfl, splitLines_no_newline sec,
          (usedImports_spec _ _ _ h3).1⟩
        · rw [e, ← ht, e2, ← hu]; simp
        · rw [← h, ← hu]; simp

/-- White space of ASCII: tab, newline, vertical tab, form feed, return, space. -/
def White (c : Char) : Prop := c.toNat ∈ [9, 10, 11, 12, 13, 32]

theorem isSpace_iff (c : Char) : isSpace c = true ↔ White c := by
  have h : ∀ d : Char, c = d ↔ c.toNat = d.toNat := fun d => ⟨fun e => by rw [e], fun e => Char.toNat_inj.1 e⟩
  simp only [isSpace, White, Bool.or_eq_true, decide_eq_true_eq, h, List.mem_cons, List.not_mem_nil, or_false]
  show (((((c.toNat = 32 ∨ c.toNat = 9) ∨ c.toNat = 10) ∨ c.toNat = 13) ∨ c.toNat = 11) ∨ c.toNat = 12) ↔ _
  omega

theorem isSpace_false {c : Char} (h : ¬ White c) : isSpace c = false := by
  rw [Bool.eq_false_iff]
  exact fun e => h ((isSpace_iff c).1 e)

/-- A line with at most two characters between white space. -/
inductive BlankLine : Text → Prop where
  | mk (ws t ws' : Text) (hw : ∀ c ∈ ws, White c) (hw' : ∀ c ∈ ws', White c) (ht : t.length < 3) : BlankLine (ws ++ t ++ ws')

/-- The qualifier of an import as gofmt writes it: an alias, or the last element of the path. -/
inductive ImportLine : Text → Text → Prop where
  | aliased (ws name path : Text) (hw : ∀ c ∈ ws, White c) (ha : name ≠ []) (hs : ∀ c ∈ name, ¬ White c) :
      ImportLine (ws ++ name ++ ' ' :: '"' :: path ++ ['"']) name
  | plain (ws name : Text) (hw : ∀ c ∈ ws, White c) (hn : name ≠ []) (hs : ' ' ∉ name) (hd : '/' ∉ name) :
      ImportLine (ws ++ '"' :: name ++ ['"']) name
  | path (ws dir name : Text) (hw : ∀ c ∈ ws, White c) (hn : name ≠ []) (hs : ' ' ∉ name) (hd : '/' ∉ name)
      (hs' : ' ' ∉ dir) : ImportLine (ws ++ '"' :: dir ++ '/' :: name ++ ['"']) name

theorem dropWhile_spaces (ws s : Text) (hw : ∀ c ∈ ws, isSpace c = true) : (ws ++ s).dropWhile isSpace = s.dropWhile isSpace := by
  induction ws with
  | nil => rfl
  | cons c ws ih =>
    have := hw c (by simp)
    simp [this, ih fun c hc => hw c (by simp [hc])]

theorem dropWhile_none {p : Char → Bool} {s : Text} (h : ∀ c ∈ s, p c = true) : s.dropWhile p = [] := by
  induction s with
  | nil => rfl
  | cons c s ih => rw [List.dropWhile_cons, if_pos (h c (by simp))]; exact ih fun c hc => h c (by simp [hc])

theorem trimSpace_length (ws t ws' : Text) (hw : ∀ c ∈ ws, White c) (hw' : ∀ c ∈ ws', White c) : (trimSpace (ws ++ t ++ ws')).length ≤ t.length := by
  have key : ∀ s : Text, ((s ++ ws').reverse.dropWhile isSpace).length ≤ s.length := by
    intro s
    rw [List.reverse_append, dropWhile_spaces _ _ fun c hc => (isSpace_iff c).2 (hw' c (List.mem_reverse.1 hc))]
    exact Nat.le_trans (List.dropWhile_sublist _).length_le (by simp)
  unfold trimSpace
  rw [List.append_assoc, dropWhile_spaces _ _ fun c hc => (isSpace_iff c).2 (hw c hc), List.length_reverse, List.dropWhile_append]
  split
  · rw [dropWhile_none fun c hc => (isSpace_iff c).2 (hw' c hc)]
    simp
  · exact Nat.le_trans (key _) (List.dropWhile_sublist _).length_le

theorem trim_quoted (ws s : Text) (x : Char) (hw : ∀ c ∈ ws, isSpace c = true) (hx : isSpace x = false) :
    trimSpace (ws ++ x :: s ++ ['"']) = x :: s ++ ['"'] := by
  unfold trimSpace
  rw [List.append_assoc, dropWhile_spaces _ _ hw]
  have h1 : (x :: s ++ ['"']).dropWhile isSpace = x :: s ++ ['"'] := by simp [hx]
  have hq : isSpace '"' = false := by decide
  rw [h1, List.reverse_append]
  simp only [List.reverse_cons, List.reverse_nil, List.nil_append, List.singleton_append]
  rw [List.dropWhile_cons, hq]
  simp

theorem slice_last (x : Text) (y : Text) : slice (x ++ y ++ ['"']) x.length ((x ++ y ++ ['"']).length - 1) = some y := by
  have h1 : (x ++ y ++ ['"']).length - 1 = (x ++ y).length := by simp
  unfold slice
  rw [h1, if_pos (by simp)]
  rw [List.take_left, List.drop_left]

/-- C41: an import line is kept exactly if its qualifier followed by a dot occurs after the block. -/
theorem C41_import_line (content line name : Text) (h : ImportLine line name) :
    keepImport content line = some (decide (name ++ ['.'] <:+: content)) := by
  have hk : ∀ (t : Text), trimSpace line = t → 3 ≤ t.length → importName t = some name →
      keepImport content line = some (decide (name ++ ['.'] <:+: content)) := by
    intro t h1 h2 h3
    unfold keepImport
    rw [h1, if_neg (by omega), h3]
    dsimp only
    congr 1
    rw [Bool.eq_iff_iff, containsText_iff]
    simp
  have hq : isSpace '"' = false := by decide
  cases h with
  | aliased ws _ path hw ha hs =>
    cases name with
    | nil => exact absurd rfl ha
    | cons x s =>
      have ht := trim_quoted ws (s ++ ' ' :: '"' :: path) x (fun c hc => (isSpace_iff c).2 (hw c hc)) (isSpace_false (hs x (by simp)))
      refine hk (x :: s ++ ' ' :: '"' :: path ++ ['"']) (by simpa using ht) (by simp; omega) ?_
      unfold importName
      rw [if_pos (by simp)]
      congr 1
      have hsp : ∀ c ∈ x :: s, decide (c ≠ ' ') = true := by
        intro c hc
        have := hs c hc
        simp only [decide_eq_true_eq]
        rintro rfl
        exact this (by unfold White; decide)
      rw [List.append_assoc, List.takeWhile_append_of_pos hsp]
      simp
  | plain ws _ hw hn hs hd =>
    have ht := trim_quoted ws name '"' (fun c hc => (isSpace_iff c).2 (hw c hc)) hq
    have hl := List.length_pos_iff.mpr hn
    refine hk ('"' :: name ++ ['"']) (by simpa using ht) (by simp; omega) ?_
    have h1 : ' ' ∉ '"' :: name ++ ['"'] := by simp [hs]
    have h2 : '/' ∉ '"' :: name ++ ['"'] := by simp [hd]
    unfold importName
    rw [if_neg h1, if_pos h2]
    exact slice_last ['"'] name
  | path ws dir _ hw hn hs hd hs' =>
    have ht := trim_quoted ws (dir ++ '/' :: name) '"' (fun c hc => (isSpace_iff c).2 (hw c hc)) hq
    have hl := List.length_pos_iff.mpr hn
    refine hk ('"' :: dir ++ '/' :: name ++ ['"']) (by simpa using ht) (by simp; omega) ?_
    have h1 : ' ' ∉ '"' :: dir ++ '/' :: name ++ ['"'] := by simp [hs, hs']
    have h2 : '/' ∈ '"' :: dir ++ '/' :: name ++ ['"'] := by simp
    unfold importName
    rw [if_neg h1, if_neg (not_not.mpr h2)]
    have h3 : lastIndexOf '/' ('"' :: dir ++ '/' :: name ++ ['"']) = (('"' :: dir).length : Int) := by
      have := lastIndexOf_cut '/' ('"' :: dir) (name ++ ['"']) (by simp [hd])
      simpa using this
    rw [h3]
    have := slice_last ('"' :: dir ++ ['/']) name
    have e : ('"' :: dir ++ ['/']).length = (('"' :: dir).length : Int).toNat + 1 := by simp
    rw [e] at this
    simpa using this

/-- C41: in a text whose first `import (` opens a block of import and blank lines, exactly the imports remain whose
qualifier followed by a dot occurs after the block; everything else is unchanged. -/
theorem C41_strip (pre post : Text) (lines : List Text) (hne : lines ≠ [])
    (hpre : ¬ "import (".toList <:+: pre ++ "import ".toList)
    (hparen : ∀ l ∈ lines, ')' ∉ l) (hnl : ∀ l ∈ lines, '\n' ∉ l)
    (hl : ∀ l ∈ lines, BlankLine l ∨ ∃ n, ImportLine l n) :
    ∃ used, stripImports (pre ++ "import (".toList ++ joinLines lines ++ ')' :: post) =
        some (pre ++ "import (".toList ++ joinLines used ++ ')' :: post) ∧ used.Sublist lines ∧
      ∀ l ∈ lines, ∀ n, ImportLine l n → (l ∈ used ↔ n ++ ['.'] <:+: ')' :: post) := by
  have hj : ')' ∉ joinLines lines := by
    have : ∀ ls : List Text, (∀ l ∈ ls, ')' ∉ l) → ')' ∉ joinLines ls := by
      intro ls
      induction ls with
      | nil => intro _; simp [joinLines]
      | cons l ls ih =>
        intro h
        cases ls with
        | nil => exact h l (by simp)
        | cons m ms =>
          simp only [joinLines]
          intro hc
          rcases List.mem_append.mp hc with hc | hc
          · exact h l (by simp) hc
          · rcases List.mem_cons.mp hc with hc | hc
            · revert hc; decide
            · exact ih (fun x hx => h x (by simp [hx])) hc
    exact this lines hparen
  have hkeep : ∀ l ∈ lines, keepImport (')' :: post) l ≠ none := by
    intro l hm
    rcases hl l hm with ⟨ws, t, ws', hw, hw', ht⟩ | ⟨n, h⟩
    · rw [keepImport, if_pos (Nat.lt_of_le_of_lt (trimSpace_length ws t ws' hw hw') ht)]
      simp
    · rw [C41_import_line _ _ _ h]; simp
  have hused : ∃ used, usedImports (')' :: post) lines = some used := by
    clear hpre hparen hnl hl hj hne
    induction lines with
    | nil => exact ⟨[], rfl⟩
    | cons l ls ih =>
      obtain ⟨r, hr⟩ := ih fun x hx => hkeep x (by simp [hx])
      obtain ⟨k, hk⟩ := Option.ne_none_iff_exists'.mp (hkeep l (by simp))
      exact ⟨if k then l :: r else r, by simp only [usedImports, hk, hr]⟩
  obtain ⟨used, hu⟩ := hused
  obtain ⟨h1, _, h3⟩ := usedImports_spec _ _ _ hu
  refine ⟨used, ?_, h1, ?_⟩
  · unfold stripImports
    have hfirst := cutBefore_sub "import (".toList pre (joinLines lines ++ ')' :: post) (by decide) hpre
    rw [show pre ++ "import (".toList ++ joinLines lines ++ ')' :: post =
      pre ++ ("import (".toList ++ (joinLines lines ++ ')' :: post)) by simp only [List.append_assoc], hfirst]
    have hdrop : ("import (".toList ++ (joinLines lines ++ ')' :: post)).drop 8 = joinLines lines ++ ')' :: post := rfl
    dsimp only
    rw [hdrop, cutBefore_first _ _ _ hj]
    dsimp only
    rw [split_join lines hne hnl, hu]
  · intro l hm n hn
    rw [h3, List.mem_filter, C41_import_line _ _ _ hn]
    simp [hm]

/-- A small Go file. -/
def sampleFile : Text :=
  "package p\nimport (\n    \"errors\"\n    \"fmt\"\n    zserio \"github.com/woven-planet/go-zserio\"\n)\nvar e = zserio.X(fmt.Sprint())".toList

example : stripImports sampleFile = some
    "package p\nimport (    \"fmt\"\n    zserio \"github.com/woven-planet/go-zserio\")\nvar e = zserio.X(fmt.Sprint())".toList := by
  decide +kernel

/-- C41: a block that is not closed makes the function panic. -/
theorem C41_violated_unclosed : stripImports "import (\n".toList = none := by decide +kernel

/-- C41: `import (` in a comment before the block is taken for the block, the comment is changed and the imports are not
stripped. -/
theorem C41_violated_comment :
    stripImports "// import (a)\nimport (\n\"fmt\"\n)".toList = some "// import ()\nimport (\n\"fmt\"\n)".toList := by
  decide +kernel

/-! ## C54: no unused import remains -/

/-- The qualifier is used: it is followed by a dot and not part of a longer identifier. -/
def Uses (body name : Text) : Prop :=
  ∃ a b, body = a ++ name ++ '.' :: b ∧ ∀ c ∈ a.getLast?, isCap c = false ∧ isLow c = false ∧ isNum c = false ∧ c ≠ '_'

/-- C54: every import that is used remains (whatever else is in the text).  Missing: that no other import remains, which is
false, see `C54_violated_part_of_word`. -/
theorem C54_used_kept_partial (content line name : Text) (h : ImportLine line name) (hu : Uses content name) :
    keepImport content line = some true := by
  rw [C41_import_line content line name h]
  obtain ⟨a, b, e, _⟩ := hu
  rw [e]
  congr 1
  rw [decide_eq_true_eq]
  exact ⟨a, b, by simp⟩

/-- C54: the import of `io` remains because of the use of `bio`. -/
theorem C54_violated_part_of_word :
    ImportLine "\"io\"".toList "io".toList ∧ ¬ Uses ")\nvar x = bio.Y".toList "io".toList ∧
      keepImport ")\nvar x = bio.Y".toList "\"io\"".toList = some true := by
  refine ⟨.plain [] "io".toList (by simp) (by decide) (by decide) (by decide), ?_, by decide +kernel⟩
  rintro ⟨a, b, e, hc⟩
  have key : ∀ n, n < 16 → (")\nvar x = bio.Y".toList.drop n).take 3 = "io.".toList →
      (")\nvar x = bio.Y".toList.take n).getLast? = some 'b' := by decide +kernel
  have hlen : a.length < 16 := by
    have := congrArg List.length e
    simp only [List.length_append, List.length_cons] at this
    have h1 : ")\nvar x = bio.Y".toList.length = 15 := by decide
    omega
  have hd : (")\nvar x = bio.Y".toList.drop a.length).take 3 = "io.".toList := by
    rw [e, List.append_assoc, List.drop_left]
    rfl
  have ht : ")\nvar x = bio.Y".toList.take a.length = a := by
    rw [e, List.append_assoc, List.take_left]
  have := key a.length hlen hd
  rw [ht] at this
  have := (hc 'b' (by simp [this])).2.1
  revert this; decide

end Verif
