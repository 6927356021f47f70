import Verif.Files
import Mathlib.Data.List.Count
import Mathlib.Data.List.Nodup

/-!
# C37, C38, C50-C52: names of files and types
-/

namespace Verif

/-! ## Decimal numbers -/

theorem decimal_isNum (n : Nat) : ∀ c ∈ decimal n, isNum c = true := by
  induction n using Nat.strongRecOn with
  | _ n ih =>
    have hd : ∀ d, d < 10 → isNum (Char.ofNat (48 + d)) = true := by decide
    intro c hc
    rw [decimal] at hc
    split at hc
    · rename_i h
      rw [List.mem_singleton] at hc; subst hc; exact hd n h
    · rcases List.mem_append.mp hc with hc | hc
      · exact ih (n / 10) (by omega) c hc
      · rw [List.mem_singleton] at hc; subst hc; exact hd _ (Nat.mod_lt _ (by omega))

theorem decimal_ne_nil (n : Nat) : decimal n ≠ [] := by
  rw [decimal]; split <;> simp

theorem decimal_inj : ∀ n m, decimal n = decimal m → n = m := by
  have hd : ∀ a, a < 10 → ∀ b, b < 10 → Char.ofNat (48 + a) = Char.ofNat (48 + b) → a = b := by decide
  intro n
  induction n using Nat.strongRecOn with
  | _ n ih =>
    intro m h
    rw [decimal, decimal.eq_def m] at h
    split at h <;> split at h
    · rename_i h1 h2
      exact hd n h1 m h2 (by simpa using h)
    · have := congrArg List.length h
      have h3 := List.length_pos_iff.mpr (decimal_ne_nil (m / 10))
      simp only [List.length_append, List.length_cons, List.length_nil] at this; omega
    · have := congrArg List.length h
      have h3 := List.length_pos_iff.mpr (decimal_ne_nil (n / 10))
      simp only [List.length_append, List.length_cons, List.length_nil] at this; omega
    · rename_i h1 h2
      obtain ⟨e1, e2⟩ := List.append_inj' h rfl
      have e3 := ih (n / 10) (by omega) (m / 10) e1
      have e4 := hd _ (Nat.mod_lt n (by omega)) _ (Nat.mod_lt m (by omega)) (by simpa using e2)
      omega

theorem decimal_length (n : Nat) (h : n < 10) : (decimal n).length = 1 := by
  rw [decimal, if_pos h]; rfl

/-! ## C37: file paths -/

/-- The path of the `k`-th repetition of a base. -/
def nameFor (base : Text) : Nat → Text
  | 0 => base ++ ".go".toList
  | k + 1 => base ++ '_' :: decimal (k + 1) ++ ".go".toList

/-- The paths for a list of bases. -/
def issueAll : PathCounts → List Text → List Text
  | _, [] => []
  | m, b :: bs => (issue m b).1 :: issueAll (issue m b).2 bs

theorem issueAll_length (m : PathCounts) (bs : List Text) : (issueAll m bs).length = bs.length := by
  induction bs generalizing m with
  | nil => rfl
  | cons b bs ih => simp [issueAll, ih]

theorem issueAll_get (bs : List Text) : ∀ (m : PathCounts) (c : Text → Nat), (∀ b, m b = if c b = 0 then none else some (c b)) →
    ∀ i b, bs[i]? = some b → (issueAll m bs)[i]? = some (nameFor b (c b + (bs.take i).count b)) := by
  induction bs with
  | nil => intro m c _ i b h; simp at h
  | cons a bs ih =>
    intro m c hm i b h
    have hissue : (issue m a).1 = nameFor a (c a) ∧
        ∀ b, (issue m a).2 b = if (c b + if a = b then 1 else 0) = 0 then none else some (c b + if a = b then 1 else 0) := by
      cases hc : c a with
      | zero =>
        have hma : m a = none := by rw [hm, hc]; rfl
        simp only [issue, hma, nameFor, true_and]
        intro b
        by_cases hab : a = b
        · subst hab; simp [hc]
        · rw [Function.update_of_ne (Ne.symm hab), hm]; simp [hab]
      | succ k =>
        have hma : m a = some (k + 1) := by rw [hm, hc]; rfl
        simp only [issue, hma, nameFor, true_and]
        intro b
        by_cases hab : a = b
        · subst hab; simp [hc]
        · rw [Function.update_of_ne (Ne.symm hab), hm]; simp [hab]
    cases i with
    | zero =>
      simp only [List.getElem?_cons_zero, Option.some.injEq] at h
      subst h
      simp [issueAll, hissue.1]
    | succ i =>
      simp only [List.getElem?_cons_succ] at h
      have := ih (issue m a).2 (fun b => c b + if a = b then 1 else 0) hissue.2 i b h
      simp only [issueAll, List.getElem?_cons_succ, this, List.take_succ_cons, List.count_cons, beq_iff_eq]
      congr 2
      omega

/-- The paths of a run are those of the bases of its requests. -/
theorem assembleAll_eq (maxLen : Nat) (m : PathCounts) (reqs : List (Text × Text)) (ps : List Text)
    (h : assembleAll maxLen m reqs = .ok ps) :
    ∃ bs, reqs.mapM (fun r => basePath r.1 r.2 maxLen) = .ok bs ∧ ps = issueAll m bs := by
  induction reqs generalizing m ps with
  | nil =>
    simp only [assembleAll] at h
    cases h
    exact ⟨[], rfl, rfl⟩
  | cons r reqs ih =>
    obtain ⟨dir, fn⟩ := r
    simp only [assembleAll, assembleUniqueFilePath] at h
    cases hb : basePath dir fn maxLen with
    | error e => simp only [hb] at h; cases h
    | ok b =>
      simp only [hb] at h
      cases hr : assembleAll maxLen (issue m b).2 reqs with
      | error e => simp only [bind, Except.bind, pure, Except.pure, hr] at h; cases h
      | ok rs =>
        simp only [bind, Except.bind, pure, Except.pure, hr] at h
        injection h with h
        obtain ⟨bs, h1, h2⟩ := ih _ _ hr
        refine ⟨b :: bs, ?_, by rw [← h, h2]; rfl⟩
        rw [List.mapM_cons]
        simp only [hb, h1]
        rfl

theorem nameFor_inj (b : Text) (i j : Nat) (h : nameFor b i = nameFor b j) : i = j := by
  cases i with
  | zero =>
    cases j with
    | zero => rfl
    | succ j =>
      have := congrArg List.length h
      simp [nameFor] at this
  | succ i =>
    cases j with
    | zero =>
      have := congrArg List.length h
      simp [nameFor] at this
    | succ j =>
      simp only [nameFor, List.append_assoc] at h
      have := List.append_cancel_left h
      simp only [List.cons_append, List.cons.injEq, true_and] at this
      exact decimal_inj _ _ (List.append_cancel_right this)

theorem nameFor_cases (b b' : Text) (i j : Nat) (hij : i ≤ j) (h : nameFor b i = nameFor b' j) :
    b = b' ∨ ∃ k, b = b' ++ '_' :: decimal (k + 1) := by
  cases j with
  | zero =>
    obtain rfl : i = 0 := by omega
    exact .inl (List.append_cancel_right h)
  | succ j =>
    cases i with
    | zero =>
      refine .inr ⟨j, ?_⟩
      simp only [nameFor] at h
      exact List.append_cancel_right h
    | succ i =>
      simp only [nameFor] at h
      have h1 := List.append_cancel_right h
      left
      have hs : ∀ n, ∀ c ∈ decimal n, c ≠ '_' := by
        intro n c hc he
        have := decimal_isNum n c hc
        subst he; revert this; decide
      have key : ∀ (x y : Text) (u v : Text), (∀ c ∈ u, c ≠ '_') → (∀ c ∈ v, c ≠ '_') → x ++ '_' :: u = y ++ '_' :: v → x = y := by
        intro x y u v hu hv he
        rcases List.append_eq_append_iff.mp he with ⟨a, e1, e2⟩ | ⟨a, e1, e2⟩
        · cases a with
          | nil => simpa using e1.symm
          | cons c a =>
            simp only [List.cons_append, List.cons.injEq] at e2
            exact absurd rfl (hu '_' (by rw [e2.2]; simp))
        · cases a with
          | nil => simpa using e1
          | cons c a =>
            simp only [List.cons_append, List.cons.injEq] at e2
            exact absurd rfl (hv '_' (by rw [e2.2]; simp))
      exact key b b' _ _ (hs _) (hs _) h1

/-- The state at the start of the program. -/
def noPaths : PathCounts := fun _ => none

theorem paths_get {ps bs : List Text} (hps : ps = issueAll noPaths bs) (i : Nat) (b : Text)
    (hb : bs[i]? = some b) : ps[i]? = some (nameFor b ((bs.take i).count b)) := by
  have := issueAll_get bs noPaths (fun _ => 0) (by intro b; rfl) i b hb
  rw [hps, this]
  simp

theorem mapM_get {α β ε : Type} (f : α → Except ε β) : ∀ (l : List α) (bs : List β), l.mapM f = .ok bs →
    bs.length = l.length ∧ ∀ (i : Nat) (a : α), l[i]? = some a → ∃ b, bs[i]? = some b ∧ f a = .ok b := by
  intro l
  induction l with
  | nil =>
    intro bs h
    rw [List.mapM_nil] at h
    cases h
    exact ⟨rfl, by intro i a h; simp at h⟩
  | cons x l ih =>
    intro bs h
    rw [List.mapM_cons] at h
    cases hx : f x with
    | error e => rw [hx] at h; cases h
    | ok y =>
      cases hl : l.mapM f with
      | error e => rw [hx, hl] at h; cases h
      | ok ys =>
        rw [hx, hl] at h
        cases h
        obtain ⟨h1, h2⟩ := ih ys hl
        refine ⟨by simp [h1], ?_⟩
        intro i a ha
        cases i with
        | zero =>
          simp only [List.getElem?_cons_zero, Option.some.injEq] at ha
          subst ha
          exact ⟨y, by simp, hx⟩
        | succ i => exact h2 i a (by simpa using ha)

/-- C37: asking again for the same file name in the same directory never gives the same path, whatever was asked before
and between. -/
theorem C37_repeated_request (maxLen : Nat) (reqs : List (Text × Text)) (ps : List Text)
    (h : assembleAll maxLen noPaths reqs = .ok ps) (i j : Nat) (hij : i < j) (r : Text × Text) (hi : reqs[i]? = some r)
    (hj : reqs[j]? = some r) : ps[i]? ≠ ps[j]? := by
  obtain ⟨bs, h1, h2⟩ := assembleAll_eq maxLen noPaths reqs ps h
  obtain ⟨hlen, hget⟩ := mapM_get _ reqs bs h1
  obtain ⟨b, hbi, hb1⟩ := hget i r hi
  obtain ⟨b', hbj, hb2⟩ := hget j r hj
  rw [hb1] at hb2
  injection hb2 with hb2
  subst hb2
  rw [paths_get h2 i b hbi, paths_get h2 j b hbj]
  intro hc
  injection hc with hc
  have := nameFor_inj b _ _ hc
  have hlt : (bs.take i).count b < (bs.take j).count b := by
    have hsplit : bs.take j = bs.take i ++ b :: (bs.drop (i + 1)).take (j - (i + 1)) := by
      have hbi' : i < bs.length := by
        rcases Nat.lt_or_ge i bs.length with h | h
        · exact h
        · rw [List.getElem?_eq_none h] at hbi; cases hbi
      have e : bs = bs.take i ++ b :: bs.drop (i + 1) := by
        have := List.getElem_cons_drop hbi'
        rw [List.getElem?_eq_getElem hbi'] at hbi
        injection hbi with hbi
        rw [hbi] at this
        rw [this, List.take_append_drop]
      conv_lhs => rw [e]
      rw [List.take_append, List.take_of_length_le (by simp; omega)]
      congr 1
      have hl : (List.take i bs).length = i := by simp; omega
      rw [hl, show j - i = (j - (i + 1)) + 1 by omega, List.take_succ_cons]
    rw [hsplit, List.count_append, List.count_cons_self]
    omega
  omega

/-- C37: no two paths of a run are the same, if no path (without suffix) looks like the numbered form of another one.
Missing: the condition, without which it fails, see `C37_violated_collision`. -/
theorem C37_unique_partial (maxLen : Nat) (reqs : List (Text × Text)) (ps bs : List Text)
    (h : assembleAll maxLen noPaths reqs = .ok ps) (hb : reqs.mapM (fun r => basePath r.1 r.2 maxLen) = .ok bs)
    (hf : ∀ b ∈ bs, ∀ b' ∈ bs, ∀ k, b ≠ b' ++ '_' :: decimal (k + 1)) : ps.Nodup := by
  obtain ⟨bs', h1, h2⟩ := assembleAll_eq maxLen noPaths reqs ps h
  rw [hb] at h1
  injection h1 with h1
  subst h1
  have hlen : ps.length = bs.length := by rw [h2, issueAll_length]
  rw [List.nodup_iff_getElem?_ne_getElem?]
  intro i j hij hj
  obtain ⟨bi, hbi⟩ : ∃ b, bs[i]? = some b := ⟨_, List.getElem?_eq_getElem (by omega)⟩
  obtain ⟨bj, hbj⟩ : ∃ b, bs[j]? = some b := ⟨_, List.getElem?_eq_getElem (by omega)⟩
  have hmi : bi ∈ bs := List.mem_of_getElem? hbi
  have hmj : bj ∈ bs := List.mem_of_getElem? hbj
  obtain ⟨hl, hget⟩ := mapM_get _ reqs bs hb
  by_cases he : bi = bj
  · subst he
    rw [paths_get h2 i bi hbi, paths_get h2 j bi hbj]
    intro hc
    injection hc with hc
    have := nameFor_inj bi _ _ hc
    have hlt : (bs.take i).count bi < (bs.take j).count bi := by
      have h3 : (bs.take (i + 1)).count bi ≤ (bs.take j).count bi :=
        (List.take_sublist_take_left (by omega)).count_le bi
      rw [List.take_add_one, hbi, List.count_append] at h3
      simp at h3
      omega
    omega
  · rw [paths_get h2 i bi hbi, paths_get h2 j bj hbj]
    intro hc
    injection hc with hc
    rcases Nat.le_total ((bs.take i).count bi) ((bs.take j).count bj) with hle | hle
    · rcases nameFor_cases _ _ _ _ hle hc with e | ⟨k, e⟩
      · exact he e
      · exact hf bi hmi bj hmj k e
    · rcases nameFor_cases _ _ _ _ hle hc.symm with e | ⟨k, e⟩
      · exact he e.symm
      · exact hf bj hmj bi hmi k e

theorem cut_at {c : Char} (x y u v : Text) (hu : c ∉ u) (hv : c ∉ v) (he : x ++ c :: u = y ++ c :: v) : x = y ∧ u = v := by
  rcases List.append_eq_append_iff.mp he with ⟨a, e1, e2⟩ | ⟨a, e1, e2⟩
  · cases a with
    | nil => simp_all
    | cons d a =>
      simp only [List.cons_append, List.cons.injEq] at e2
      exact absurd (by rw [e2.2]; simp) hu
  · cases a with
    | nil => simp_all
    | cons d a =>
      simp only [List.cons_append, List.cons.injEq] at e2
      exact absurd (by rw [e2.2]; simp) hv

/-- A directory as `path.Join` returns it, other than the root. -/
def CleanDir (dir : Text) : Prop := dir ≠ [] ∧ dir.getLast? ≠ some '/'

theorem pathJoin_clean (dir fn : Text) (h : CleanDir dir) : pathJoin dir fn = dir ++ '/' :: fn := by
  simp [pathJoin, h.1, h.2]

theorem basePath_short (dir fn : Text) (hd : CleanDir dir) (maxLen : Nat) (h : dir.length + 1 + fn.length + 5 ≤ maxLen)
    (hfn : fn ≠ []) : basePath dir fn maxLen = .ok (dir ++ '/' :: fn) := by
  have := List.length_pos_iff.mpr hfn
  rw [basePath, pathJoin_clean _ _ hd]
  rw [if_neg (by omega), if_neg (by simp only [List.length_append, List.length_cons]; omega)]

/-- C37: file names that do not end in an underscore and a number, and fit into the limit, get different paths. -/
theorem C37_plain_names_partial (maxLen : Nat) (reqs : List (Text × Text)) (ps : List Text)
    (h : assembleAll maxLen noPaths reqs = .ok ps)
    (hr : ∀ r ∈ reqs, CleanDir r.1 ∧ r.2 ≠ [] ∧ '/' ∉ r.2 ∧ r.1.length + 1 + r.2.length + 5 ≤ maxLen ∧
      ∀ x k, r.2 ≠ x ++ '_' :: decimal (k + 1)) : ps.Nodup := by
  obtain ⟨bs, h1, h2⟩ := assembleAll_eq maxLen noPaths reqs ps h
  refine C37_unique_partial maxLen reqs ps bs h h1 ?_
  obtain ⟨hl, hget⟩ := mapM_get _ reqs bs h1
  have hbs : ∀ b ∈ bs, ∃ r ∈ reqs, b = r.1 ++ '/' :: r.2 := by
    intro b hb
    obtain ⟨i, hi, rfl⟩ := List.getElem_of_mem hb
    obtain ⟨r, hri⟩ : ∃ r, reqs[i]? = some r := ⟨_, List.getElem?_eq_getElem (by omega)⟩
    have hrm : r ∈ reqs := List.mem_of_getElem? hri
    obtain ⟨b', hb1, hb2⟩ := hget i r hri
    obtain ⟨c1, c2, c3, c4, _⟩ := hr r hrm
    rw [basePath_short r.1 r.2 c1 maxLen c4 c2] at hb2
    injection hb2 with hb2
    rw [List.getElem?_eq_getElem hi] at hb1
    injection hb1 with hb1
    exact ⟨r, hrm, by rw [hb1, hb2]⟩
  intro b hb b' hb' k he
  obtain ⟨r, hrm, rfl⟩ := hbs b hb
  obtain ⟨r', hrm', rfl⟩ := hbs b' hb'
  obtain ⟨_, _, c3, _, c5⟩ := hr r hrm
  obtain ⟨_, _, c3', _, _⟩ := hr r' hrm'
  rw [List.append_assoc, List.cons_append] at he
  refine c5 r'.2 k (cut_at _ _ _ _ c3 ?_ he).2
  intro hc
  rcases List.mem_append.mp hc with hc | hc
  · exact c3' hc
  · rcases List.mem_cons.mp hc with hc | hc
    · revert hc; decide
    · have := decimal_isNum _ _ hc
      revert this; decide

example : assembleAll 260 noPaths [("d".toList, "foo".toList), ("d".toList, "foo".toList), ("e".toList, "foo_bar".toList)] =
    .ok ["d/foo.go".toList, "d/foo_1.go".toList, "e/foo_bar.go".toList] := by
  decide +kernel

/-- C37: three types with different names of which two get the same file; the file names are those the generator uses, in its
order. -/
theorem C37_violated_collision :
    assembleAll 260 noPaths ((["Foo1".toList, "FOO".toList, "Foo".toList]).map fun n => ("d".toList, toSnake n)) =
      .ok ["d/foo_1.go".toList, "d/foo.go".toList, "d/foo_1.go".toList] := by
  decide +kernel

theorem basePath_length (dir fn b : Text) (maxLen : Nat) (h : basePath dir fn maxLen = .ok b) : b.length + 5 ≤ maxLen := by
  unfold basePath at h
  split at h
  · cases h
  · dsimp only at h
    split at h
    · split at h
      · injection h with h; subst h
        simp only [List.length_take]; omega
      · injection h with h; subst h
        simp only [List.length_take]; omega
    · injection h with h; subst h
      omega

/-- C37: as long as no base path is used more than ten times, paths respect the limit.
Missing: more uses, see `C37_violated_length`. -/
theorem C37_length_partial (maxLen : Nat) (reqs : List (Text × Text)) (ps bs : List Text)
    (h : assembleAll maxLen noPaths reqs = .ok ps) (hb : reqs.mapM (fun r => basePath r.1 r.2 maxLen) = .ok bs)
    (hc : ∀ b, bs.count b ≤ 10) : ∀ p ∈ ps, p.length ≤ maxLen := by
  obtain ⟨bs', h1, h2⟩ := assembleAll_eq maxLen noPaths reqs ps h
  rw [hb] at h1
  injection h1 with h1
  subst h1
  have hlen : ps.length = bs.length := by rw [h2, issueAll_length]
  obtain ⟨hl, hget⟩ := mapM_get _ reqs bs hb
  intro p hp
  obtain ⟨i, hi, rfl⟩ := List.getElem_of_mem hp
  obtain ⟨r, hri⟩ : ∃ r, reqs[i]? = some r := ⟨_, List.getElem?_eq_getElem (by omega)⟩
  obtain ⟨b, hbi, hbe⟩ := hget i r hri
  have h3 := paths_get h2 i b hbi
  rw [List.getElem?_eq_getElem hi] at h3
  injection h3 with h3
  rw [h3]
  have hbl := basePath_length _ _ _ _ hbe
  have hcount : (bs.take i).count b < 10 := by
    have h4 : (bs.take (i + 1)).count b ≤ bs.count b := (List.take_sublist _ _).count_le b
    rw [List.take_add_one, hbi, List.count_append] at h4
    simp at h4
    have := hc b
    omega
  generalize hn : (bs.take i).count b = n at hcount
  cases n with
  | zero => simp [nameFor]; omega
  | succ n =>
    have := decimal_length (n + 1) hcount
    simp [nameFor, this]; omega

/-- C37: the eleventh request for one path exceeds the limit. -/
theorem C37_violated_length :
    ∃ ps p, assembleAll 12 noPaths (List.replicate 11 ("d".toList, "abcde".toList)) = .ok ps ∧ p ∈ ps ∧ 12 < p.length :=
  ⟨["d/abcde.go".toList, "d/abcde_1.go".toList, "d/abcde_2.go".toList, "d/abcde_3.go".toList, "d/abcde_4.go".toList,
    "d/abcde_5.go".toList, "d/abcde_6.go".toList, "d/abcde_7.go".toList, "d/abcde_8.go".toList, "d/abcde_9.go".toList,
    "d/abcde_10.go".toList], "d/abcde_10.go".toList, by decide +kernel, by decide +kernel, by decide +kernel⟩

/-! ## C50: the limit and the directory -/

theorem lastIndexOf_cut (c : Char) (x y : Text) (hy : c ∉ y) : lastIndexOf c (x ++ c :: y) = x.length := by
  have : (x ++ c :: y).reverse.findIdx? (· = c) = some y.length := by
    rw [List.reverse_append, List.reverse_cons, List.append_assoc, List.findIdx?_append]
    have h1 : y.reverse.findIdx? (fun z => decide (z = c)) = none := by
      rw [List.findIdx?_eq_none_iff]
      intro z hz
      have : z ≠ c := fun hc => hy (hc ▸ List.mem_reverse.mp hz)
      simp [this]
    rw [h1]
    simp [List.findIdx?_cons]
  simp only [lastIndexOf, this, List.length_append, List.length_cons]
  omega

/-- C50: every file is placed into its output directory and ends in `.go`. -/
theorem C50_directory (maxLen : Nat) (m m' : PathCounts) (dir fn p : Text) (hd : CleanDir dir) (hfn : '/' ∉ fn)
    (h : assembleUniqueFilePath m dir fn maxLen = .ok (p, m')) :
    ∃ x, '/' ∉ x ∧ p = dir ++ '/' :: x ++ ".go".toList := by
  unfold assembleUniqueFilePath at h
  cases hb : basePath dir fn maxLen with
  | error e => rw [hb] at h; cases h
  | ok b =>
    rw [hb] at h
    have hp : (issue m b).1 = p := by
      simp only [bind, Except.bind, pure, Except.pure] at h
      injection h with h
      rw [h]
    have hbase : ∃ x, '/' ∉ x ∧ b = dir ++ '/' :: x := by
      unfold basePath at hb
      split at hb
      · cases hb
      · rename_i hmax
        dsimp only at hb
        rw [pathJoin_clean _ _ hd] at hb
        have htake : ∀ k, dir.length < k → (dir ++ '/' :: fn).take k = dir ++ '/' :: fn.take (k - dir.length - 1) := by
          intro k hk
          rw [List.take_append, List.take_of_length_le (by omega)]
          obtain ⟨j, hj⟩ : ∃ j, k - dir.length = j + 1 := ⟨k - dir.length - 1, by omega⟩
          rw [hj, List.take_succ_cons]
          simp
        have hsub : ∀ k, '/' ∉ fn.take k := fun k hc => hfn (List.mem_of_mem_take hc)
        split at hb
        · rw [htake (maxLen - 5) (by omega)] at hb
          split at hb
          · rename_i hlast
            rw [lastIndexOf_cut '/' dir _ (hsub _)] at hlast
            injection hb with hb
            refine ⟨(fn.take (maxLen - 5 - dir.length - 1)).take
              ((lastIndexOf '_' (dir ++ '/' :: fn.take (maxLen - 5 - dir.length - 1))).toNat - dir.length - 1), ?_, ?_⟩
            · intro hc; exact hsub _ (List.mem_of_mem_take hc)
            · rw [← hb]
              generalize fn.take (maxLen - 5 - dir.length - 1) = y at hlast ⊢
              generalize hL : lastIndexOf '_' (dir ++ '/' :: y) = L at hlast ⊢
              have hk : dir.length < L.toNat := by omega
              rw [List.take_append, List.take_of_length_le (by omega)]
              obtain ⟨j, hj⟩ : ∃ j, L.toNat - dir.length = j + 1 := ⟨L.toNat - dir.length - 1, by omega⟩
              rw [hj, List.take_succ_cons]
              simp
          · injection hb with hb
            exact ⟨_, hsub _, hb.symm⟩
        · injection hb with hb
          exact ⟨fn, hfn, hb.symm⟩
    obtain ⟨x, hx, rfl⟩ := hbase
    rw [← hp]
    unfold issue
    split
    · rename_i count _
      refine ⟨x ++ '_' :: decimal count, ?_, by simp⟩
      intro hc
      rcases List.mem_append.mp hc with hc | hc
      · exact hx hc
      · rcases List.mem_cons.mp hc with hc | hc
        · revert hc; decide
        · have := decimal_isNum _ _ hc
          revert this; decide
    · exact ⟨x, hx, by simp⟩

/-- C50: a name that fits into the limit is not shortened.  Missing: limit 0, see `C50_violated_no_limit`. -/
theorem C50_unrestricted_partial (maxLen : Nat) (dir fn : Text) (hd : CleanDir dir) (hfn : fn ≠ [])
    (h : dir.length + 1 + fn.length + 5 ≤ maxLen) :
    ∃ m, assembleUniqueFilePath noPaths dir fn maxLen = .ok (dir ++ '/' :: fn ++ ".go".toList, m) := by
  refine ⟨(issue noPaths (dir ++ '/' :: fn)).2, ?_⟩
  simp only [assembleUniqueFilePath, basePath_short dir fn hd maxLen h hfn]
  rfl

example : CleanDir "a/b".toList ∧
    (assembleUniqueFilePath noPaths "a/b".toList "long_name".toList 13).toOption.map Prod.fst = some "a/b/long.go".toList := by
  refine ⟨⟨by decide, by decide⟩, by decide +kernel⟩

/-- C50: the documented way to have no limit, 0, makes every request fail. -/
theorem C50_violated_no_limit (m : PathCounts) (dir fn : Text) : assembleUniqueFilePath m dir fn 0 = .error () := by
  have : basePath dir fn 0 = .error () := by
    rw [basePath, if_pos (by omega)]
  simp only [assembleUniqueFilePath, this]
  rfl

/-! ## C51: generated files are part of the Go package -/

/-- The parts of a name between underscores. -/
def underscoreParts : Text → List Text
  | [] => [[]]
  | c :: t => if c = '_' then [] :: underscoreParts t else (c :: (underscoreParts t).headD []) :: (underscoreParts t).tail

/-- The operating systems that the Go tool knows in names of files (`knownOS` of Go's internal/syslist). -/
def knownOS : List Text :=
  ["aix", "android", "darwin", "dragonfly", "freebsd", "hurd", "illumos", "ios", "js", "linux", "nacl", "netbsd", "openbsd", "plan9", "solaris",
    "wasip1", "windows", "zos"].map String.toList

/-- The architectures that the Go tool knows in names of files (`knownArch`). -/
def knownArch : List Text :=
  ["386", "amd64", "amd64p32", "arm", "armbe", "arm64", "arm64be", "loong64", "mips", "mipsle", "mips64", "mips64le", "mips64p32", "mips64p32le",
    "ppc", "ppc64", "ppc64le", "riscv", "riscv64", "s390", "s390x", "sparc", "sparc64", "wasm"].map String.toList

/-- Whether a part of a name fits the platform (`matchTag` of go/build). -/
def fitsPlatform (os arch part : Text) : Bool :=
  part == os || part == arch || (os == "android".toList && part == "linux".toList) || (os == "illumos".toList && part == "solaris".toList) ||
    (os == "ios".toList && part == "darwin".toList)

/-- The Go tool builds files with names like `*_GOOS.go`, `*_GOARCH.go` and `*_GOOS_GOARCH.go` only for that platform
(https://pkg.go.dev/cmd/go, "build constraints"; `goodOSArchFile` of go/build). -/
def builtOn (os arch file : Text) : Bool :=
  let parts := (underscoreParts (file.takeWhile (· ≠ '.'))).tail
  let parts := if parts.getLast? = some "test".toList then parts.dropLast else parts
  match parts.reverse with
  | [] => true
  | [a] => if a ∈ knownOS ∨ a ∈ knownArch then fitsPlatform os arch a else true
  | a :: o :: _ =>
    if o ∈ knownOS ∧ a ∈ knownArch then fitsPlatform os arch a && fitsPlatform os arch o
    else if a ∈ knownOS ∨ a ∈ knownArch then fitsPlatform os arch a else true

/-- Go ignores a file in normal builds for a platform if its name starts with `_` or `.`, ends in `_test.go` or names another platform
(https://pkg.go.dev/cmd/go, "package lists", "test packages" and "build constraints"). -/
def GoIgnores (os arch file : Text) : Prop :=
  file.head? = some '_' ∨ file.head? = some '.' ∨ "_test.go".toList <:+ file ∨ builtOn os arch file = false

/-- A name that ends, behind an underscore, in `test`, an operating system or an architecture. -/
def SpecialName (fn : Text) : Prop :=
  ∃ a b, fn = a ++ '_' :: b ∧ (b = "test".toList ∨ b ∈ knownOS ∨ b ∈ knownArch)

theorem underscoreParts_ne (t : Text) : underscoreParts t ≠ [] := by
  cases t with
  | nil => simp [underscoreParts]
  | cons c t => rw [underscoreParts]; split <;> simp

theorem underscoreParts_append (a b : Text) : underscoreParts (a ++ '_' :: b) = underscoreParts a ++ underscoreParts b := by
  induction a with
  | nil => simp [underscoreParts]
  | cons c a ih =>
    rw [List.cons_append, underscoreParts, underscoreParts, ih]
    split
    · rfl
    · cases h : underscoreParts a with
      | nil => exact absurd h (underscoreParts_ne a)
      | cons x xs => rfl

theorem underscoreParts_single {t : Text} (h : '_' ∉ t) : underscoreParts t = [t] := by
  induction t with
  | nil => rfl
  | cons c t ih =>
    rw [underscoreParts, if_neg fun e => h (by simp [e]), ih fun e => h (by simp [e])]
    rfl

/-- The last part. -/
theorem underscore_last (t : Text) : '_' ∉ t ∨ ∃ a b, t = a ++ '_' :: b ∧ '_' ∉ b := by
  induction t with
  | nil => exact .inl (by simp)
  | cons c t ih =>
    rcases ih with h | ⟨a, b, rfl, h⟩
    · by_cases hc : c = '_'
      · exact .inr ⟨[], t, by simp [hc], h⟩
      · exact .inl (by simp [h, Ne.symm hc])
    · exact .inr ⟨c :: a, b, by simp, h⟩

theorem underscore_last_unique {a b a' b' : Text} (h : a ++ '_' :: b = a' ++ '_' :: b') (hb : '_' ∉ b) (hb' : '_' ∉ b') : b = b' := by
  have h1 := congrArg (fun t => (underscoreParts t).getLast?) h
  simpa [underscoreParts_append, underscoreParts_single hb, underscoreParts_single hb'] using h1

theorem special_plain {b : Text} (h : b = "test".toList ∨ b ∈ knownOS ∨ b ∈ knownArch) : '_' ∉ b := by
  have h1 : ∀ b ∈ knownOS ++ knownArch, '_' ∉ b := by decide +kernel
  rcases h with rfl | h | h
  · decide
  · exact h1 b (by simp [h])
  · exact h1 b (by simp [h])

/-- What the name of a file says about platforms. -/
theorem builtOn_iff (stem : Text) (hd : '.' ∉ stem) (ht : ¬ "_test".toList <:+ stem) :
    (∀ os arch, builtOn os arch (stem ++ ".go".toList) = true) ↔ ¬ SpecialName stem := by
  have hs : (stem ++ ".go".toList).takeWhile (· ≠ '.') = stem := by
    rw [List.takeWhile_append_of_pos fun c hc => by simpa using fun e : c = '.' => hd (e ▸ hc)]
    simp [show ".go".toList = ['.', 'g', 'o'] from rfl]
  rcases underscore_last stem with h | ⟨a, b, rfl, hb⟩
  · constructor
    · rintro - ⟨a, b, rfl, -⟩
      exact h (by simp)
    · intro _ os arch
      unfold builtOn
      simp only [hs, underscoreParts_single h]
      rfl
  · have hnt : b ≠ "test".toList := by
      rintro rfl
      exact ht ⟨a, rfl⟩
    have hp : (underscoreParts (a ++ '_' :: b)).tail = (underscoreParts a).tail ++ [b] := by
      rw [underscoreParts_append, underscoreParts_single hb]
      cases h : underscoreParts a with
      | nil => exact absurd h (underscoreParts_ne a)
      | cons x xs => rfl
    have hr : ∀ os arch, builtOn os arch (a ++ '_' :: b ++ ".go".toList) = match (underscoreParts a).tail.reverse with
        | [] => if b ∈ knownOS ∨ b ∈ knownArch then fitsPlatform os arch b else true
        | o :: _ => if o ∈ knownOS ∧ b ∈ knownArch then fitsPlatform os arch b && fitsPlatform os arch o
          else if b ∈ knownOS ∨ b ∈ knownArch then fitsPlatform os arch b else true := by
      intro os arch
      unfold builtOn
      simp only [hs, hp]
      rw [if_neg (by simpa using hnt)]
      simp only [List.reverse_append, List.reverse_cons, List.reverse_nil, List.nil_append, List.singleton_append]
      cases (underscoreParts a).tail.reverse <;> rfl
    have hnone : ∀ x ∈ knownOS ++ knownArch, fitsPlatform [] [] x = false := by decide +kernel
    constructor
    · rintro h ⟨a', b', he, h'⟩
      obtain rfl := underscore_last_unique he hb (special_plain h')
      have h1 := h [] []
      rw [hr] at h1
      rcases h' with h' | h'
      · exact hnt h'
      · have h2 : fitsPlatform [] [] b = false := hnone b (by simpa using h')
        revert h1
        cases (underscoreParts a).tail.reverse with
        | nil => simp [h', h2]
        | cons o os => simp [h', h2]
    · intro h os arch
      rw [hr]
      have h' : ¬ (b ∈ knownOS ∨ b ∈ knownArch) := fun e => h ⟨a, b, rfl, .inr e⟩
      cases (underscoreParts a).tail.reverse with
      | nil => simp [h']
      | cons o os => exact (if_neg fun e : o ∈ knownOS ∧ b ∈ knownArch => h' (.inr e.2)).trans (if_neg h')

/-- Which names are built on every platform. -/
theorem nameFor_built (fn : Text) (hne : fn ≠ []) (hd : '.' ∉ fn) (k : Nat) :
    (∀ os arch, ¬ GoIgnores os arch (nameFor fn k)) ↔ fn.head? ≠ some '_' ∧ (k = 0 → ¬ SpecialName fn) ∧ k ≠ 386 := by
  have hh : (nameFor fn k).head? = fn.head? := by
    cases fn with
    | nil => exact absurd rfl hne
    | cons c fn => cases k <;> rfl
  have hdot : fn.head? ≠ some '.' := fun e => hd (List.mem_of_mem_head? (by simp [e]))
  have hgo : ∀ stem : Text, "_test.go".toList <:+ stem ++ ".go".toList ↔ "_test".toList <:+ stem := fun stem => by
    rw [show "_test.go".toList = "_test".toList ++ ".go".toList by decide]
    exact ⟨fun ⟨t, h⟩ => ⟨t, List.append_cancel_right (by rw [← h, List.append_assoc])⟩, fun ⟨t, h⟩ => ⟨t, by rw [← h, List.append_assoc]⟩⟩
  have key : ∀ stem : Text, nameFor fn k = stem ++ ".go".toList → '.' ∉ stem →
      ((∀ os arch, ¬ GoIgnores os arch (nameFor fn k)) ↔ fn.head? ≠ some '_' ∧ ¬ SpecialName stem) := by
    intro stem he hs
    have ht : ¬ SpecialName stem → ¬ "_test".toList <:+ stem := fun h ⟨t, e⟩ => h ⟨t, "test".toList, e.symm, .inl rfl⟩
    constructor
    · intro h
      have h1 : ¬ "_test".toList <:+ stem := fun e => h [] [] (.inr (.inr (.inl (he ▸ (hgo stem).2 e))))
      refine ⟨fun e => h [] [] (.inl (hh.trans e)), (builtOn_iff stem hs h1).1 fun os arch => ?_⟩
      cases hb : builtOn os arch (stem ++ ".go".toList) with
      | true => rfl
      | false => exact absurd (.inr (.inr (.inr (he ▸ hb)))) (h os arch)
    · rintro ⟨h1, h2⟩ os arch (h | h | h | h)
      · exact h1 (hh ▸ h)
      · exact hdot (hh ▸ h)
      · exact ht h2 ((hgo stem).1 (he ▸ h))
      · rw [he, (builtOn_iff stem hs (ht h2)).2 h2 os arch] at h
        cases h
  cases k with
  | zero =>
    rw [key fn rfl hd]
    simp
  | succ k =>
    have hn : ∀ c, isNum c = true → c ≠ '_' ∧ c ≠ '.' := fun c h => ⟨fun e => by subst e; revert h; decide, fun e => by subst e; revert h; decide⟩
    have hu : '_' ∉ decimal (k + 1) := fun h => (hn _ (decimal_isNum _ _ h)).1 rfl
    have hp : '.' ∉ decimal (k + 1) := fun h => (hn _ (decimal_isNum _ _ h)).2 rfl
    rw [key (fn ++ '_' :: decimal (k + 1)) rfl (by simp [hd, hp])]
    have hs : SpecialName (fn ++ '_' :: decimal (k + 1)) ↔ k + 1 = 386 := by
      constructor
      · rintro ⟨a, b, e, hb⟩
        obtain rfl := underscore_last_unique e hu (special_plain hb)
        have hall : ∀ x ∈ "test".toList :: (knownOS ++ knownArch), x.all isNum = true → x = decimal 386 := by decide +kernel
        exact decimal_inj _ _ (hall _ (by simpa using hb) (List.all_eq_true.2 fun c hc => decimal_isNum _ c hc))
      · intro e
        rw [e]
        exact ⟨fn, _, rfl, .inr (.inr (by decide +kernel))⟩
    rw [hs]
    simp

/-- A request whose path is not cut: a directory, a name for a file in it, both together short enough. -/
def ShortPath (maxLen : Nat) (r : Text × Text) : Prop :=
  r.1 ≠ [] ∧ r.1.getLast? ≠ some '/' ∧ r.2 ≠ [] ∧ '/' ∉ r.2 ∧ r.1.length + 1 + r.2.length + 5 ≤ maxLen

theorem short_base {maxLen : Nat} {r : Text × Text} (h : ShortPath maxLen r) : basePath r.1 r.2 maxLen = .ok (r.1 ++ '/' :: r.2) := by
  obtain ⟨h1, h2, h3, h4, h5⟩ := h
  have h6 := List.length_pos_iff.2 h3
  unfold basePath pathJoin
  rw [if_neg (by omega)]
  dsimp only
  rw [if_neg h1, if_neg h2, if_neg]
  rintro ⟨-, h⟩
  simp only [List.length_append, List.length_cons] at h
  omega

theorem short_bases {maxLen : Nat} : ∀ {reqs : List (Text × Text)}, (∀ r ∈ reqs, ShortPath maxLen r) →
    reqs.mapM (fun r => basePath r.1 r.2 maxLen) = .ok (reqs.map fun r => r.1 ++ '/' :: r.2)
  | [], _ => rfl
  | r :: reqs, h => by
    rw [List.mapM_cons, short_base (h r (by simp)), short_bases fun r hr => h r (by simp [hr])]
    rfl

theorem slash_unique {a b c d : Text} (h : a ++ '/' :: b = c ++ '/' :: d) (hb : '/' ∉ b) (hd : '/' ∉ d) : (a, b) = (c, d) := by
  rcases List.append_eq_append_iff.1 h with ⟨t, e1, e2⟩ | ⟨t, e1, e2⟩
  · cases t with
    | nil => simp only [List.append_nil] at e1; simp only [List.nil_append, List.cons.injEq, true_and] at e2; rw [e1, e2]
    | cons x t => simp only [List.cons_append, List.cons.injEq] at e2; exact absurd (by rw [e2.2]; simp) hb
  · cases t with
    | nil => simp only [List.append_nil] at e1; simp only [List.nil_append, List.cons.injEq, true_and] at e2; rw [e1, e2]
    | cons x t => simp only [List.cons_append, List.cons.injEq] at e2; exact absurd (by rw [e2.2]; simp) hd

/-- C51: exactly which files of a run Go builds on every platform, `fn` is the name of the type in snake case: those that do not start with an
underscore and do not end in `_test`, an operating system or an architecture; a file that got a number, as there were `k` before with that name, is
built unless the number is 386. -/
theorem C51_built (maxLen : Nat) (reqs : List (Text × Text)) (hs : ∀ r ∈ reqs, ShortPath maxLen r) (ps : List Text)
    (h : assembleAll maxLen noPaths reqs = .ok ps) (i : Nat) (dir fn : Text) (hi : reqs[i]? = some (dir, fn)) (hd : '.' ∉ fn) :
    ∃ file, ps[i]? = some (dir ++ '/' :: file) ∧ '/' ∉ file ∧
      ((∀ os arch, ¬ GoIgnores os arch file) ↔
        fn.head? ≠ some '_' ∧ ((dir, fn) ∉ reqs.take i → ¬ SpecialName fn) ∧ (reqs.take i).count (dir, fn) ≠ 386) := by
  obtain ⟨bs, h1, h2⟩ := assembleAll_eq maxLen noPaths reqs ps h
  rw [short_bases hs] at h1
  cases h1
  have hshort := hs _ (List.mem_of_getElem? hi)
  have hp := paths_get h2 i (dir ++ '/' :: fn) (by simp [hi])
  have hcount : ((reqs.map fun r => r.1 ++ '/' :: r.2).take i).count (dir ++ '/' :: fn) = (reqs.take i).count (dir, fn) := by
    rw [← List.map_take, List.count, List.countP_map, List.count]
    refine List.countP_congr fun r hr => ?_
    have hr' := hs r (List.mem_of_mem_take hr)
    simp only [Function.comp, beq_iff_eq]
    exact ⟨fun e => slash_unique e hr'.2.2.2.1 hshort.2.2.2.1, fun e => by rw [e]⟩
  rw [hcount] at hp
  have hslash : ∀ c, isNum c = true → c ≠ '/' := fun c h e => by subst e; revert h; decide
  refine ⟨nameFor fn ((reqs.take i).count (dir, fn)), ?_, ?_, ?_⟩
  · rw [hp]
    cases (reqs.take i).count (dir, fn) <;> simp [nameFor]
  · cases (reqs.take i).count (dir, fn) with
    | zero => simpa [nameFor] using hshort.2.2.2.1
    | succ k =>
      have h3 := hshort.2.2.2.1
      have h4 : '/' ∉ decimal (k + 1) := fun h => hslash _ (decimal_isNum _ _ h) rfl
      simp [nameFor, h3, h4]
  · rw [nameFor_built fn hshort.2.2.1 hd, List.count_eq_zero]

/-- The file of `TestFoo` is built everywhere, the second time with the number 1; that of `FooTest` is so only the second time. -/
example : assembleAll 260 noPaths ([("out", "TestFoo"), ("out", "TestFoo"), ("out", "FooTest"), ("out", "FooTest")].map fun r =>
    (r.1.toList, toSnake r.2.toList)) = .ok (["out/test_foo.go", "out/test_foo_1.go", "out/foo_test.go", "out/foo_test_1.go"].map String.toList) := by
  decide +kernel

/-- C51: a type whose name ends in `Test` is written to a file that is only used in tests. -/
theorem C51_violated_test (os arch : Text) :
    assembleAll 260 noPaths [("out".toList, toSnake "LapTest".toList)] = .ok ["out/lap_test.go".toList] ∧ GoIgnores os arch "lap_test.go".toList :=
  ⟨by decide +kernel, .inr (.inr (.inl ⟨"lap".toList, by decide⟩))⟩

/-- C51: a type whose name ends in the name of an operating system exists only there: the package cannot be built elsewhere. -/
theorem C51_violated_platform (arch : Text) (h : arch ≠ "windows".toList) :
    assembleAll 260 noPaths [("out".toList, toSnake "OpenWindows".toList)] = .ok ["out/open_windows.go".toList] ∧ GoIgnores "linux".toList arch "open_windows.go".toList ∧
      ¬ GoIgnores "windows".toList arch "open_windows.go".toList := by
  have hf : fitsPlatform "linux".toList arch "windows".toList = false := by
    have : ("windows".toList == arch) = false := by simpa using fun e : "windows".toList = arch => h e.symm
    unfold fitsPlatform
    rw [this]
    decide +kernel
  have hb : ∀ os, builtOn os arch "open_windows.go".toList = fitsPlatform os arch "windows".toList := by
    intro os
    unfold builtOn
    have h1 : (underscoreParts ("open_windows.go".toList.takeWhile (· ≠ '.'))).tail = ["windows".toList] := by decide +kernel
    simp only [h1]
    rw [if_neg (by decide +kernel)]
    show (if _ then _ else _) = _
    rw [if_pos (.inl (by decide +kernel))]
  refine ⟨by decide +kernel, .inr (.inr (.inr (by rw [hb, hf]))), ?_⟩
  rintro (h | h | h | h)
  · exact absurd h (by decide)
  · exact absurd h (by decide)
  · exact absurd h (by decide)
  · rw [hb] at h
    have h' : fitsPlatform "windows".toList arch "windows".toList = true := by simp [fitsPlatform]
    rw [h'] at h
    cases h

end Verif
