import Verif.Discover

/-!
# C68: the schema files that take part
-/

namespace Verif

/-- `leaf` is reached from `node` by following the entries `rel`. -/
inductive Under : FsNode → List (List Char) → FsNode → Prop where
  | here (node : FsNode) : Under node [] node
  | step {readable : Bool} {entries : List (List Char × FsNode)} {name : List Char} {child leaf : FsNode}
      {rel : List (List Char)} : (name, child) ∈ entries → Under child rel leaf →
      Under (.dir readable entries) (name :: rel) leaf

/-- The name begins with a dot. -/
def StartsWithDot (name : List Char) : Prop := ∃ rest, name = '.' :: rest

/-- The name ends in `.zs` or `.zserio`. -/
def NamesSchema (name : List Char) : Prop :=
  ∃ stem, name = stem ++ ['.', 'z', 's'] ∨ name = stem ++ ['.', 'z', 's', 'e', 'r', 'i', 'o']

/-- What a user expects to be read: something that is not a directory, with a schema name, and not below or itself a hidden
entry. -/
def SchemaBelow (top : List Char) (node : FsNode) (rel : List (List Char)) : Prop :=
  ∃ leaf, Under node rel leaf ∧ leaf.isDir = false ∧ (∀ c ∈ rel, ¬ StartsWithDot c) ∧ NamesSchema ((top :: rel).getLast (by simp))

/-- A directory that is not hidden and cannot be listed. -/
def UnreadableBelow (node : FsNode) : Prop :=
  ∃ rel entries, Under node rel (.dir false entries) ∧ ∀ c ∈ rel, ¬ StartsWithDot c

theorem isHidden_iff (name : List Char) : isHidden name = true ↔ StartsWithDot name := by
  cases name with
  | nil => simp [isHidden, StartsWithDot]
  | cons c cs =>
    simp only [isHidden, StartsWithDot, List.isPrefixOf, Bool.and_true, beq_iff_eq, List.cons.injEq]
    constructor
    · rintro rfl
      exact ⟨cs, rfl, rfl⟩
    · rintro ⟨r, rfl, -⟩
      rfl

theorem isSchemaName_iff (name : List Char) : isSchemaName name = true ↔ NamesSchema name := by
  simp only [isSchemaName, Bool.or_eq_true, List.isSuffixOf_iff_suffix, NamesSchema, List.IsSuffix]
  constructor
  · rintro (⟨t, h⟩ | ⟨t, h⟩)
    · exact ⟨t, .inl h.symm⟩
    · exact ⟨t, .inr h.symm⟩
  · rintro ⟨t, h | h⟩
    · exact .inl ⟨t, h.symm⟩
    · exact .inr ⟨t, h.symm⟩

theorem below_dir {readable : Bool} {entries : List (List Char × FsNode)} {rel : List (List Char)} {leaf : FsNode} :
    Under (.dir readable entries) rel leaf ↔
      (rel = [] ∧ leaf = .dir readable entries) ∨
      ∃ name child rel', rel = name :: rel' ∧ (name, child) ∈ entries ∧ Under child rel' leaf := by
  constructor
  · intro h
    cases h with
    | here => exact .inl ⟨rfl, rfl⟩
    | step hm hb => exact .inr ⟨_, _, _, rfl, hm, hb⟩
  · rintro (⟨rfl, rfl⟩ | ⟨n, c, r, rfl, hm, hb⟩)
    · exact .here _
    · exact .step hm hb

theorem below_leaf {node leaf : FsNode} {rel : List (List Char)} (hn : node.isDir = false) :
    Under node rel leaf ↔ rel = [] ∧ leaf = node := by
  constructor
  · intro h
    cases h with
    | here => exact ⟨rfl, rfl⟩
    | step hm hb => cases hn
  · rintro ⟨rfl, rfl⟩
    exact .here _

/-- What the walk finds in the entries of a directory. -/
def SchemaIn (entries : List (List Char × FsNode)) (rel : List (List Char)) : Prop :=
  ∃ name child rel', rel = name :: rel' ∧ (name, child) ∈ entries ∧ ¬ StartsWithDot name ∧ SchemaBelow name child rel'

theorem schemaBelow_dir {top : List Char} {readable : Bool} {entries : List (List Char × FsNode)}
    {rel : List (List Char)} : SchemaBelow top (.dir readable entries) rel ↔ SchemaIn entries rel := by
  simp only [SchemaBelow, SchemaIn, below_dir]
  constructor
  · rintro ⟨leaf, (⟨rfl, rfl⟩ | ⟨n, c, r, rfl, hm, hb⟩), hd, hc, hs⟩
    · cases hd
    · refine ⟨n, c, r, rfl, hm, hc n (by simp), leaf, hb, hd, fun x hx => hc x (by simp [hx]), ?_⟩
      simpa using hs
  · rintro ⟨n, c, r, rfl, hm, hn, leaf, hb, hd, hc, hs⟩
    refine ⟨leaf, .inr ⟨n, c, r, rfl, hm, hb⟩, hd, ?_, by simpa using hs⟩
    intro x hx
    rcases List.mem_cons.1 hx with rfl | hx
    · exact hn
    · exact hc x hx

/-- A directory below some of the entries that is not hidden and cannot be listed. -/
def UnreadableIn (entries : List (List Char × FsNode)) : Prop :=
  ∃ name child, (name, child) ∈ entries ∧ ¬ StartsWithDot name ∧ UnreadableBelow child

theorem unreadableBelow_dir {readable : Bool} {entries : List (List Char × FsNode)} :
    UnreadableBelow (.dir readable entries) ↔ readable = false ∨ UnreadableIn entries := by
  simp only [UnreadableBelow, UnreadableIn, below_dir]
  constructor
  · rintro ⟨rel, es, (⟨rfl, h⟩ | ⟨n, c, r, rfl, hm, hb⟩), hc⟩
    · cases h
      exact .inl rfl
    · exact .inr ⟨n, c, hm, hc n (by simp), r, es, hb, fun x hx => hc x (by simp [hx])⟩
  · rintro (rfl | ⟨n, c, hm, hn, r, es, hb, hc⟩)
    · exact ⟨[], entries, .inl ⟨rfl, rfl⟩, by simp⟩
    · refine ⟨n :: r, es, .inr ⟨n, c, r, rfl, hm, hb⟩, ?_⟩
      intro x hx
      rcases List.mem_cons.1 hx with rfl | hx
      · exact hn
      · exact hc x hx

mutual
theorem walkNode_spec (path : List (List Char)) (name : List Char) (node : FsNode) (hn : ¬ StartsWithDot name) :
    (walkNode path name node = .error () ∧ UnreadableBelow node) ∨
    (¬ UnreadableBelow node ∧ ∃ found, walkNode path name node = .ok found ∧
      ∀ p, p ∈ found ↔ ∃ rel, p = path ++ rel ∧ SchemaBelow name node rel) := by
  have hh : isHidden name = false := by
    rw [Bool.eq_false_iff]
    exact fun h => hn ((isHidden_iff name).1 h)
  cases node with
  | file =>
    refine .inr ⟨?_, ?_⟩
    · rintro ⟨rel, es, hb, -⟩
      rw [below_leaf rfl] at hb
      cases hb.2
    · by_cases hs : isSchemaName name = true
      · refine ⟨[path], by simp [walkNode, hh, hs], fun p => ?_⟩
        simp only [SchemaBelow, below_leaf (node := FsNode.file) rfl, List.mem_singleton]
        constructor
        · rintro rfl
          exact ⟨[], by simp, .file, ⟨rfl, rfl⟩, rfl, by simp, by simpa using (isSchemaName_iff name).1 hs⟩
        · rintro ⟨rel, rfl, leaf, ⟨rfl, rfl⟩, -⟩
          simp
      · refine ⟨[], by simp [walkNode, hh, hs], fun p => ?_⟩
        simp only [SchemaBelow, below_leaf (node := FsNode.file) rfl, List.not_mem_nil, false_iff]
        rintro ⟨rel, rfl, leaf, ⟨rfl, rfl⟩, -, -, hs'⟩
        exact hs ((isSchemaName_iff name).2 (by simpa using hs'))
  | link =>
    refine .inr ⟨?_, ?_⟩
    · rintro ⟨rel, es, hb, -⟩
      rw [below_leaf rfl] at hb
      cases hb.2
    · by_cases hs : isSchemaName name = true
      · refine ⟨[path], by simp [walkNode, hh, hs], fun p => ?_⟩
        simp only [SchemaBelow, below_leaf (node := FsNode.link) rfl, List.mem_singleton]
        constructor
        · rintro rfl
          exact ⟨[], by simp, .link, ⟨rfl, rfl⟩, rfl, by simp, by simpa using (isSchemaName_iff name).1 hs⟩
        · rintro ⟨rel, rfl, leaf, ⟨rfl, rfl⟩, -⟩
          simp
      · refine ⟨[], by simp [walkNode, hh, hs], fun p => ?_⟩
        simp only [SchemaBelow, below_leaf (node := FsNode.link) rfl, List.not_mem_nil, false_iff]
        rintro ⟨rel, rfl, leaf, ⟨rfl, rfl⟩, -, -, hs'⟩
        exact hs ((isSchemaName_iff name).2 (by simpa using hs'))
  | dir readable entries =>
    rw [unreadableBelow_dir]
    simp only [schemaBelow_dir]
    cases readable with
    | false => exact .inl ⟨by simp [walkNode, hh], .inl rfl⟩
    | true =>
      have hw : walkNode path name (.dir true entries) = walkEntries path entries := by simp [walkNode, hh]
      rw [hw]
      rcases walkEntries_spec path entries with ⟨h1, h2⟩ | ⟨h1, h2⟩
      · exact .inl ⟨h1, .inr h2⟩
      · exact .inr ⟨by simpa using h1, h2⟩

theorem walkEntries_spec (path : List (List Char)) (entries : List (List Char × FsNode)) :
    (walkEntries path entries = .error () ∧ UnreadableIn entries) ∨
    (¬ UnreadableIn entries ∧ ∃ found, walkEntries path entries = .ok found ∧
      ∀ p, p ∈ found ↔ ∃ rel, p = path ++ rel ∧ SchemaIn entries rel) := by
  match entries with
  | [] =>
    refine .inr ⟨?_, [], by simp [walkEntries], ?_⟩
    · rintro ⟨n, c, hm, -⟩
      cases hm
    · intro p
      simp only [List.not_mem_nil, false_iff]
      rintro ⟨rel, -, n, c, r, -, hm, -⟩
      cases hm
  | (n, node) :: rest =>
    have hrest := walkEntries_spec path rest
    by_cases hn : StartsWithDot n
    · have hw : walkNode (path ++ [n]) n node = .ok [] := by
        have hh := (isHidden_iff n).2 hn
        cases node <;> simp [walkNode, hh]
      have hu : UnreadableIn ((n, node) :: rest) ↔ UnreadableIn rest := by
        simp only [UnreadableIn, List.mem_cons]
        constructor
        · rintro ⟨x, c, (h | h), hx, hc⟩
          · cases h
            exact absurd hn hx
          · exact ⟨x, c, h, hx, hc⟩
        · rintro ⟨x, c, h, hx, hc⟩
          exact ⟨x, c, .inr h, hx, hc⟩
      have hs : ∀ rel, SchemaIn ((n, node) :: rest) rel ↔ SchemaIn rest rel := by
        intro rel
        simp only [SchemaIn, List.mem_cons]
        constructor
        · rintro ⟨x, c, r, hr, (h | h), hx, hc⟩
          · cases h
            exact absurd hn hx
          · exact ⟨x, c, r, hr, h, hx, hc⟩
        · rintro ⟨x, c, r, hr, h, hx, hc⟩
          exact ⟨x, c, r, hr, .inr h, hx, hc⟩
      simp only [hu, hs]
      have he : walkEntries path ((n, node) :: rest) = walkEntries path rest := by
        simp only [walkEntries, hw]
        cases walkEntries path rest <;> rfl
      rw [he]
      exact hrest
    · have hu : UnreadableIn ((n, node) :: rest) ↔ UnreadableBelow node ∨ UnreadableIn rest := by
        simp only [UnreadableIn, List.mem_cons]
        constructor
        · rintro ⟨x, c, (h | h), hx, hc⟩
          · cases h
            exact .inl hc
          · exact .inr ⟨x, c, h, hx, hc⟩
        · rintro (h | ⟨x, c, h, hx, hc⟩)
          · exact ⟨n, node, .inl rfl, hn, h⟩
          · exact ⟨x, c, .inr h, hx, hc⟩
      have hs : ∀ rel, SchemaIn ((n, node) :: rest) rel ↔
          (∃ r, rel = n :: r ∧ SchemaBelow n node r) ∨ SchemaIn rest rel := by
        intro rel
        simp only [SchemaIn, List.mem_cons]
        constructor
        · rintro ⟨x, c, r, hr, (h | h), hx, hc⟩
          · cases h
            exact .inl ⟨r, hr, hc⟩
          · exact .inr ⟨x, c, r, hr, h, hx, hc⟩
        · rintro (⟨r, hr, hc⟩ | ⟨x, c, r, hr, h, hx, hc⟩)
          · exact ⟨n, node, r, hr, .inl rfl, hn, hc⟩
          · exact ⟨x, c, r, hr, .inr h, hx, hc⟩
      rw [hu]
      simp only [hs]
      rcases walkNode_spec (path ++ [n]) n node hn with ⟨h1, h2⟩ | ⟨h1, found, h2, h3⟩
      · exact .inl ⟨by simp [walkEntries, h1, bind, Except.bind], .inl h2⟩
      · rcases hrest with ⟨g1, g2⟩ | ⟨g1, found', g2, g3⟩
        · exact .inl ⟨by simp [walkEntries, h2, g1, bind, Except.bind], .inr g2⟩
        · refine .inr ⟨by simp [h1, g1], found ++ found', by simp [walkEntries, h2, g2, bind, Except.bind, pure, Except.pure], ?_⟩
          intro p
          rw [List.mem_append, h3, g3]
          constructor
          · rintro (⟨r, rfl, hr⟩ | ⟨r, rfl, hr⟩)
            · exact ⟨n :: r, by simp, .inl ⟨r, rfl, hr⟩⟩
            · exact ⟨r, rfl, .inr hr⟩
          · rintro ⟨r, rfl, (⟨r', rfl, hr⟩ | hr)⟩
            · exact .inl ⟨r', by simp, hr⟩
            · exact .inr ⟨r, rfl, hr⟩
end

/-- The last element of a path is `name`; slashes behind it do not count.  A path of slashes only has the name `/`. -/
inductive LastElement : List Char → List Char → Prop
  | only (name : List Char) (n : Nat) : name ≠ [] → '/' ∉ name → LastElement (name ++ List.replicate n '/') name
  | below (dir name : List Char) (n : Nat) : name ≠ [] → '/' ∉ name → LastElement (dir ++ '/' :: name ++ List.replicate n '/') name
  | root (n : Nat) : LastElement (List.replicate (n + 1) '/') ['/']

theorem strip_slashes (s name : List Char) (n : Nat) (h0 : name ≠ []) (hn : '/' ∉ name) :
    stripTrailingSlashes (s ++ name ++ List.replicate n '/') = s ++ name := by
  have hd : ∀ t : List Char, ((t ++ List.replicate n '/').reverse.dropWhile (· = '/')) = t.reverse.dropWhile (· = '/') := by
    intro t
    rw [List.reverse_append, List.reverse_replicate]
    induction n with
    | zero => rfl
    | succ n ih => rw [List.replicate_succ, List.cons_append, List.dropWhile_cons]; simp [ih]
  have hl : ∀ t, t ≠ [] → '/' ∉ t → ∀ u : List Char, (u ++ t).reverse.dropWhile (· = '/') = (u ++ t).reverse := by
    intro t ht hs u
    rw [List.reverse_append]
    cases hr : t.reverse with
    | nil => exact absurd (List.reverse_eq_nil_iff.1 hr) ht
    | cons c cs =>
      have hc : c ≠ '/' := by
        rintro rfl
        exact hs (by rw [← List.mem_reverse, hr]; simp)
      simp [hc]
  cases s with
  | cons c s =>
    simp only [stripTrailingSlashes, List.cons_append, hd, hl name h0 hn, List.reverse_reverse]
  | nil =>
    cases name with
    | nil => exact absurd rfl h0
    | cons c cs =>
      simp only [stripTrailingSlashes, List.nil_append, List.cons_append, hd]
      by_cases hcs : cs = []
      · subst hcs; rfl
      · have := hl cs hcs (fun h => hn (by simp [h])) []
        simp only [List.nil_append] at this
        rw [this, List.reverse_reverse]

theorem LastElement.baseName {path name : List Char} (h : LastElement path name) : baseName path = name := by
  have key : ∀ s name : List Char, name ≠ [] → '/' ∉ name → (s = [] ∨ s.getLast? = some '/') →
      ∀ last before, (s ++ name).reverse = last :: before → (before.takeWhile (· ≠ '/')).reverse ++ [last] = name := by
    intro s name h0 hn hs last before e
    rw [List.reverse_append] at e
    cases hr : name.reverse with
    | nil => exact absurd (List.reverse_eq_nil_iff.1 hr) h0
    | cons c cs =>
      rw [hr, List.cons_append] at e
      injection e with e1 e2
      subst e1 e2
      have hcs : ∀ x ∈ cs, decide (x ≠ '/') = true := by
        intro x hx
        simp only [decide_eq_true_eq]
        rintro rfl
        exact hn (by rw [← List.mem_reverse, hr]; simp [hx])
      rw [List.takeWhile_append_of_pos hcs]
      have ht : s.reverse.takeWhile (· ≠ '/') = [] := by
        rcases hs with rfl | hs
        · rfl
        · rw [List.getLast?_eq_head?_reverse] at hs
          cases hq : s.reverse with
          | nil => rfl
          | cons d ds =>
            rw [hq] at hs
            injection hs with hs
            simp [hs]
      rw [ht, List.append_nil]
      have : name = (c :: cs).reverse := by rw [← hr, List.reverse_reverse]
      rw [this, List.reverse_cons]
  have fin : ∀ s name : List Char, name ≠ [] → '/' ∉ name → (s = [] ∨ s.getLast? = some '/') → ∀ n,
      Verif.baseName (s ++ name ++ List.replicate n '/') = name := by
    intro s name h0 hn hs n
    unfold Verif.baseName
    rw [strip_slashes s name n h0 hn]
    split
    · rename_i e
      rw [List.reverse_eq_nil_iff, List.append_eq_nil_iff] at e
      exact absurd e.2 h0
    · rename_i last before e
      exact key s name h0 hn hs last before e
  cases h with
  | only _ n h0 hn => exact fin [] _ h0 hn (.inl rfl) n
  | below dir _ n h0 hn =>
    have := fin (dir ++ ['/']) _ h0 hn (.inr (by simp)) n
    simpa using this
  | root n =>
    have : stripTrailingSlashes (List.replicate (n + 1) '/') = ['/'] := by
      have hd : (List.replicate n '/').dropWhile (· = '/') = [] := by
        clear fin key
        induction n with
        | zero => rfl
        | succ n ih => rw [List.replicate_succ, List.dropWhile_cons]; simp [ih]
      simp only [stripTrailingSlashes, List.replicate_succ, List.reverse_replicate, hd, List.reverse_nil]
    unfold Verif.baseName
    rw [this]
    rfl

/-- **C68** (one argument whose name is not hidden): the command reads exactly the schema files below its argument, or reports
a directory that it cannot list. -/
theorem C68_found_partial (root top : List Char) (node : FsNode) (ht : LastElement root top) (hroot : ¬ StartsWithDot top) :
    (filesToParse [(root, some node)] = .error () ∧ UnreadableBelow node) ∨
    (¬ UnreadableBelow node ∧ ∃ found, filesToParse [(root, some node)] = .ok found ∧
      ∀ f, f ∈ found ↔ f.1 = root ∧ SchemaBelow top node f.2) := by
  obtain rfl := ht.baseName
  rcases walkNode_spec [] (baseName root) node hroot with ⟨h1, h2⟩ | ⟨h1, found, h2, h3⟩
  · exact .inl ⟨by simp [filesToParse, walkDir, h1, bind, Except.bind], h2⟩
  · refine .inr ⟨h1, found.map fun p => (root, p), by simp [filesToParse, walkDir, h2, bind, Except.bind, pure, Except.pure], ?_⟩
    rintro ⟨a, b⟩
    simp only [List.mem_map, Prod.mk.injEq, h3, List.nil_append]
    constructor
    · rintro ⟨p, ⟨rel, rfl, hr⟩, rfl, rfl⟩
      exact ⟨rfl, hr⟩
    · rintro ⟨rfl, hr⟩
      exact ⟨b, ⟨b, rfl, hr⟩, rfl, rfl⟩

/-- Entries of every directory have distinct names. -/
inductive NamesDistinct : FsNode → Prop where
  | file : NamesDistinct .file
  | link : NamesDistinct .link
  | dir {readable : Bool} {entries : List (List Char × FsNode)} : (entries.map Prod.fst).Nodup →
      (∀ e ∈ entries, NamesDistinct e.2) → NamesDistinct (.dir readable entries)

mutual
theorem walkNode_prefix (path : List (List Char)) (name : List Char) (node : FsNode) {found : List (List (List Char))}
    (h : walkNode path name node = .ok found) : ∀ p ∈ found, ∃ rel, p = path ++ rel := by
  cases node with
  | file =>
    simp only [walkNode] at h
    split_ifs at h <;> cases h <;> simp
  | link =>
    simp only [walkNode] at h
    split_ifs at h <;> cases h <;> simp
  | dir readable entries =>
    simp only [walkNode] at h
    split_ifs at h
    · cases h
      simp
    · intro p hp
      obtain ⟨n, -, rel, rfl⟩ := walkEntries_prefix path entries h p hp
      exact ⟨n :: rel, rfl⟩

theorem walkEntries_prefix (path : List (List Char)) (entries : List (List Char × FsNode))
    {found : List (List (List Char))} (h : walkEntries path entries = .ok found) :
    ∀ p ∈ found, ∃ n ∈ entries.map Prod.fst, ∃ rel, p = path ++ n :: rel := by
  match entries with
  | [] =>
    cases h
    simp
  | (n, node) :: rest =>
    simp only [walkEntries] at h
    cases h1 : walkNode (path ++ [n]) n node with
    | error e => simp [h1, bind, Except.bind] at h
    | ok a =>
      cases h2 : walkEntries path rest with
      | error e => simp [h1, h2, bind, Except.bind] at h
      | ok b =>
        simp only [h1, h2, bind, Except.bind, pure, Except.pure, Except.ok.injEq] at h
        subst h
        intro p hp
        rcases List.mem_append.1 hp with hp | hp
        · obtain ⟨rel, rfl⟩ := walkNode_prefix _ _ _ h1 p hp
          exact ⟨n, by simp, rel, by simp⟩
        · obtain ⟨m, hm, rel, rfl⟩ := walkEntries_prefix _ _ h2 p hp
          exact ⟨m, by simp only [List.map_cons, List.mem_cons]; exact .inr hm, rel, rfl⟩
end

mutual
theorem walkNode_nodup (path : List (List Char)) (name : List Char) (node : FsNode) (hd : NamesDistinct node)
    {found : List (List (List Char))} (h : walkNode path name node = .ok found) : found.Nodup := by
  cases node with
  | file =>
    simp only [walkNode] at h
    split_ifs at h <;> cases h <;> simp
  | link =>
    simp only [walkNode] at h
    split_ifs at h <;> cases h <;> simp
  | dir readable entries =>
    simp only [walkNode] at h
    split_ifs at h
    · cases h
      simp
    · cases hd with
      | dir hn hall => exact walkEntries_nodup path entries hn hall h

theorem walkEntries_nodup (path : List (List Char)) (entries : List (List Char × FsNode))
    (hn : (entries.map Prod.fst).Nodup) (hall : ∀ e ∈ entries, NamesDistinct e.2)
    {found : List (List (List Char))} (h : walkEntries path entries = .ok found) : found.Nodup := by
  match entries with
  | [] =>
    cases h
    simp
  | (n, node) :: rest =>
    simp only [walkEntries] at h
    cases h1 : walkNode (path ++ [n]) n node with
    | error e => simp [h1, bind, Except.bind] at h
    | ok a =>
      cases h2 : walkEntries path rest with
      | error e => simp [h1, h2, bind, Except.bind] at h
      | ok b =>
        simp only [h1, h2, bind, Except.bind, pure, Except.pure, Except.ok.injEq] at h
        subst h
        simp only [List.map_cons, List.nodup_cons] at hn
        refine List.nodup_append.2 ⟨walkNode_nodup _ _ _ (hall (n, node) (by simp)) h1,
          walkEntries_nodup _ _ hn.2 (fun e he => hall e (by simp [he])) h2, ?_⟩
        intro x hx y hy hxy
        subst hxy
        obtain ⟨r, hr⟩ := walkNode_prefix _ _ _ h1 x hx
        obtain ⟨m, hm, r', hr'⟩ := walkEntries_prefix _ _ h2 x hy
        rw [hr] at hr'
        simp only [List.append_assoc, List.cons_append, List.nil_append, List.append_cancel_left_eq,
          List.cons.injEq] at hr'
        exact hn.1 (hr'.1 ▸ hm)
end

/-- **C68**: no file is read twice. -/
theorem C68_once (root : List Char) (node : FsNode) (hd : NamesDistinct node) (found : List (List Char × List (List Char)))
    (h : filesToParse [(root, some node)] = .ok found) : found.Nodup := by
  cases hw : walkNode [] (baseName root) node with
  | error e => simp [filesToParse, walkDir, hw, bind, Except.bind] at h
  | ok paths =>
    simp only [filesToParse, walkDir, hw, bind, Except.bind, pure, Except.pure, Except.ok.injEq] at h
    subst h
    refine List.Pairwise.map _ ?_ (walkNode_nodup _ _ _ hd hw)
    intro a b hab he
    exact hab (Prod.mk.inj he).2

/-- Two directories with a hidden file, a hidden directory, something else and two schema files. -/
def demoTree : FsNode :=
  .dir true [(".git".toList, .dir false []), ("a.zs".toList, .file), ("notes.txt".toList, .file),
    ("sub".toList, .dir true [(".b.zs".toList, .file), ("c.zserio".toList, .link)])]

/-- **C68**: without arguments, and for an argument that is not there, the command reports an error. -/
theorem C68_nothing (root : List Char) : filesToParse [] = .error () ∧ filesToParse [(root, none)] = .error () := ⟨rfl, rfl⟩

example : LastElement "../schemas/".toList "schemas".toList ∧ ¬ StartsWithDot "schemas".toList ∧
    filesToParse [("../schemas/".toList, some demoTree)] =
      .ok [("../schemas/".toList, ["a.zs".toList]), ("../schemas/".toList, ["sub".toList, "c.zserio".toList])] := by
  refine ⟨.below "..".toList "schemas".toList 1 (by decide) (by decide), ?_, rfl⟩
  rintro ⟨r, h⟩
  cases h

example : NamesDistinct demoTree := by
  refine .dir (by decide) ?_
  intro e he
  simp only [List.mem_cons, List.not_mem_nil, or_false] at he
  rcases he with rfl | rfl | rfl | rfl
  · exact .dir (by decide) (by simp)
  · exact .file
  · exact .file
  · refine .dir (by decide) ?_
    intro e he
    simp only [List.mem_cons, List.not_mem_nil, or_false] at he
    rcases he with rfl | rfl
    · exact .file
    · exact .link

/-- **C68 is violated** by a root whose last element begins with a dot: nothing is read and nothing is reported, whatever is in
the directory.  The arguments `.`, `./`, `..` and `../..` are of this kind. -/
theorem C68_violated_dot (root top : List Char) (ht : LastElement root top) (hroot : StartsWithDot top) (node : FsNode) :
    filesToParse [(root, some node)] = .ok [] := by
  obtain rfl := ht.baseName
  have hh := (isHidden_iff (baseName root)).2 hroot
  cases node <;> simp [filesToParse, walkDir, walkNode, hh, bind, Except.bind, pure, Except.pure]

example : LastElement ".".toList ".".toList ∧ LastElement "./".toList ".".toList ∧ LastElement "..".toList "..".toList ∧
    LastElement "../..".toList "..".toList ∧ StartsWithDot ".".toList ∧ StartsWithDot "..".toList :=
  ⟨.only ".".toList 0 (by decide) (by decide), .only ".".toList 1 (by decide) (by decide), .only "..".toList 0 (by decide) (by decide),
    .below "..".toList "..".toList 0 (by decide) (by decide), ⟨_, rfl⟩, ⟨_, rfl⟩⟩

example : SchemaBelow ".".toList demoTree ["a.zs".toList] := by
  refine ⟨.file, .step (by simp) (.here _), rfl, ?_, "a".toList, .inl rfl⟩
  rintro c hc ⟨r, h⟩
  simp only [List.mem_cons, List.not_mem_nil, or_false] at hc
  subst hc
  cases h

/-- **C68 is violated** by a link to a directory as argument: nothing is read and nothing is reported. -/
theorem C68_violated_link : filesToParse [("schemas".toList, some .link)] = .ok [] := rfl

/-- **C68 is violated** by several directories: one directory is searched, of two the first one is taken for a file, which
fails. -/
theorem C68_violated_several (root : List Char) (node : FsNode) (hdir : node.isDir = true)
    (rest : List (List Char × Option FsNode)) (hne : rest ≠ []) :
    filesToParse ((root, some node) :: rest) = .ok (((root, some node) :: rest).map fun a => (a.1, [])) ∧
    openAll ((root, some node) :: rest) = .error () := by
  constructor
  · cases rest with
    | nil => exact absurd rfl hne
    | cons a as => rfl
  · cases node with
    | dir r es => rfl
    | file => cases hdir
    | link => cases hdir

example : filesToParse [("a".toList, some demoTree), ("b".toList, some demoTree)] = .ok [("a".toList, []), ("b".toList, [])] :=
  rfl

end Verif
