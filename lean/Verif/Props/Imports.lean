import Verif.Imports

/-!
# C35, C36, C48, C49: imports and type resolution
-/

namespace Verif

/-- Package `b` is imported by package `a`. -/
def Imports (g : ImportGraph) (a b : String) : Prop := b ∈ g a

/-! ## C35 -/

theorem addImports_spec (ps : List String) (s : ImportState) (hp : ∀ x, x ∈ s.processed ↔ x ∈ s.imports) (hn : s.imports.Nodup) :
    let t := addImports ps s
    (∀ x, x ∈ t.processed ↔ x ∈ t.imports) ∧ t.imports.Nodup ∧ (∀ x, x ∈ t.imports ↔ x ∈ s.imports ∨ x ∈ ps) ∧
      (∀ x, x ∈ t.todo ↔ x ∈ s.todo ∨ (x ∈ ps ∧ x ∉ s.imports)) ∧
      t.imports.length + s.todo.length = s.imports.length + t.todo.length := by
  induction ps generalizing s with
  | nil => exact ⟨hp, hn, by simp [addImports], by simp [addImports], by simp [addImports]⟩
  | cons p ps ih =>
    by_cases h : p ∈ s.processed
    · simp only [addImports, if_pos h]
      obtain ⟨a, b, c, d, e⟩ := ih s hp hn
      have hi := (hp p).mp h
      refine ⟨a, b, ?_, ?_, e⟩
      · intro x; rw [c]; constructor
        · rintro (h | h) <;> simp [h]
        · rintro (h | h)
          · exact .inl h
          · rcases List.mem_cons.mp h with rfl | h
            · exact .inl hi
            · exact .inr h
      · intro x; rw [d]; constructor
        · rintro (h | ⟨h, k⟩)
          · exact .inl h
          · exact .inr ⟨List.mem_cons_of_mem _ h, k⟩
        · rintro (h | ⟨h, k⟩)
          · exact .inl h
          · rcases List.mem_cons.mp h with rfl | h
            · exact absurd hi k
            · exact .inr ⟨h, k⟩
    · simp only [addImports, if_neg h]
      have hi : p ∉ s.imports := fun hc => h ((hp p).mpr hc)
      have hn' : (s.imports ++ [p]).Nodup := by
        rw [List.nodup_append]
        refine ⟨hn, by simp, ?_⟩
        intro a ha b hb
        rw [List.mem_singleton] at hb; subst hb
        rintro rfl; exact hi ha
      obtain ⟨a, b, c, d, e⟩ := ih ⟨s.imports ++ [p], s.todo ++ [p], p :: s.processed⟩ (by
        intro x; simp only [List.mem_cons, List.mem_append, List.not_mem_nil, or_false, hp]; tauto) hn'
      refine ⟨a, b, ?_, ?_, ?_⟩
      · intro x; rw [c]; simp only [List.mem_append, List.mem_cons, List.not_mem_nil, or_false]; tauto
      · intro x; rw [d]
        simp only [List.mem_append, List.mem_cons, List.not_mem_nil, or_false]
        by_cases hx : x = p
        · subst hx; simp [hi]
        · simp [hx]
      · simp only [List.length_append, List.length_cons, List.length_nil] at e ⊢; omega

theorem importLoop_spec (g : ImportGraph) (root : String) (nodes : List String) (hfin : ∀ a b, b ∈ g a → b ∈ nodes) :
    ∀ (n : Nat) (pkg : String) (s : ImportState), (∀ x, x ∈ s.processed ↔ x ∈ s.imports) → s.imports.Nodup →
      (∀ x ∈ s.imports, x ∈ nodes) → (∀ x ∈ s.imports, Relation.TransGen (Imports g) root x) →
      (pkg = root ∨ pkg ∈ s.imports) → (∀ x ∈ s.todo, x ∈ s.imports) →
      (∀ x, (x = root ∨ x ∈ s.imports) → x ≠ pkg → x ∉ s.todo → ∀ y ∈ g x, y ∈ s.imports) →
      (nodes.length - s.imports.length) + s.todo.length < n →
      ∃ out, importLoop g n pkg s = some out ∧ out.Nodup ∧ (∀ x ∈ out, Relation.TransGen (Imports g) root x) ∧
        (∀ x, (x = root ∨ x ∈ out) → ∀ y ∈ g x, y ∈ out) := by
  intro n
  induction n with
  | zero => intro pkg s _ _ _ _ _ _ _ h; omega
  | succ n ih =>
    intro pkg s hp hn hf hr hpkg htodo hclosed hfuel
    obtain ⟨a, b, c, d, e⟩ := addImports_spec (g pkg) s hp hn
    simp only [importLoop]
    generalize hs' : addImports (g pkg) s = t at a b c d e
    have hpr : ∀ y ∈ g pkg, Relation.TransGen (Imports g) root y := by
      intro y hy
      rcases hpkg with rfl | hpkg
      · exact .single hy
      · exact (hr pkg hpkg).tail hy
    have hr' : ∀ x ∈ t.imports, Relation.TransGen (Imports g) root x := by
      intro x hx
      rcases (c x).mp hx with hx | hx
      · exact hr x hx
      · exact hpr x hx
    have hf' : ∀ x ∈ t.imports, x ∈ nodes := by
      intro x hx
      rcases (c x).mp hx with hx | hx
      · exact hf x hx
      · exact hfin pkg x hx
    have htodo' : ∀ x ∈ t.todo, x ∈ t.imports := by
      intro x hx
      rcases (d x).mp hx with hx | hx
      · exact (c x).mpr (.inl (htodo x hx))
      · exact (c x).mpr (.inr hx.1)
    have hlen : t.imports.length ≤ nodes.length := (List.subperm_of_subset b hf').length_le
    have hclosed' : ∀ x, (x = root ∨ x ∈ t.imports) → x ∉ t.todo → ∀ y ∈ g x, y ∈ t.imports := by
      intro x hx hnt y hy
      by_cases hxp : x = pkg
      · subst hxp; exact (c y).mpr (.inr hy)
      · have hns : x ∉ s.todo := fun hc => hnt ((d x).mpr (.inl hc))
        have hx' : x = root ∨ x ∈ s.imports := by
          rcases hx with hx | hx
          · exact .inl hx
          · rcases (c x).mp hx with hx | hx
            · exact .inr hx
            · by_cases hi : x ∈ s.imports
              · exact .inr hi
              · exact absurd ((d x).mpr (.inr ⟨hx, hi⟩)) hnt
        exact (c y).mpr (.inl (hclosed x hx' hxp hns y hy))
    cases ht : t.todo.getLast? with
    | none =>
      have hnil : t.todo = [] := List.getLast?_eq_none_iff.mp ht
      exact ⟨t.imports, rfl, b, hr', fun x hx => hclosed' x hx (by simp [hnil])⟩
    | some q =>
      have hsplit : t.todo = t.todo.dropLast ++ [q] := by
        obtain ⟨l, hl⟩ := List.getLast?_eq_some_iff.mp ht
        rw [hl]; simp
      have hq : q ∈ t.todo := by rw [hsplit]; simp
      have hll : t.todo.length = t.todo.dropLast.length + 1 := by
        conv_lhs => rw [hsplit]
        simp
      refine ih q { t with todo := t.todo.dropLast } a b hf' hr' (.inr (htodo' q hq)) ?_ ?_ ?_
      · intro x hx
        exact htodo' x (by rw [hsplit]; exact List.mem_append_left _ hx)
      · intro x hx hxq hnt y hy
        refine hclosed' x hx ?_ y hy
        intro hc
        rw [hsplit] at hc
        rcases List.mem_append.mp hc with hc | hc
        · exact hnt hc
        · exact hxq (by simpa using hc)
      · dsimp only
        omega

/-- A run with enough iterations does not change when given more. -/
theorem importLoop_mono (g : ImportGraph) (n : Nat) (pkg : String) (s : ImportState) (out : List String)
    (h : importLoop g n pkg s = some out) (k : Nat) : importLoop g (n + k) pkg s = some out := by
  induction n generalizing pkg s with
  | zero => simp [importLoop] at h
  | succ n ih =>
    rw [show n + 1 + k = (n + k) + 1 by omega]
    simp only [importLoop] at h ⊢
    cases ht : (addImports (g pkg) s).todo.getLast? with
    | none => rw [ht] at h; exact h
    | some q => rw [ht] at h; exact ih _ _ h

/-- C35: on a finite import graph the list of all imports is computed after finitely many rounds, without duplicates, and
contains exactly the packages reachable by one or more imports. -/
theorem C35_all_imports (g : ImportGraph) (nodes : List String) (hfin : ∀ a b, b ∈ g a → b ∈ nodes) (root : String) :
    ∃ out n, (∀ k, getAllImports g (n + k) root = some out) ∧ out.Nodup ∧
      ∀ x, x ∈ out ↔ Relation.TransGen (Imports g) root x := by
  obtain ⟨out, h1, h2, h3, h4⟩ := importLoop_spec g root nodes hfin (nodes.length + 1) root {} (by simp) (by simp) (by simp)
    (by simp) (.inl rfl) (by simp) (by
      intro x hx hne
      simp only [List.not_mem_nil, or_false] at hx
      exact absurd hx hne) (by simp)
  refine ⟨out, nodes.length + 1, fun k => importLoop_mono _ _ _ _ _ h1 k, h2, fun x => ⟨h3 x, fun hx => ?_⟩⟩
  induction hx with
  | single h => exact h4 root (.inl rfl) _ h
  | tail _ h ih => exact h4 _ (.inr ih) _ h

/-- An import cycle of two packages, one of which imports a third one. -/
def cycleGraph : ImportGraph := fun p => if p = "a" then ["b", "c"] else if p = "b" then ["a"] else []

example : (∀ a b, b ∈ cycleGraph a → b ∈ ["a", "b", "c"]) ∧ getAllImports cycleGraph 4 "a" = some ["b", "c", "a"] := by
  refine ⟨?_, by decide +kernel⟩
  intro a b h
  unfold cycleGraph at h
  split_ifs at h <;> simp_all

/-! ## C36 -/

theorem firstOk_ok {α : Type} (f : String → Option (Except Unit α)) (ps : List String) (x : α) (h : firstOk f ps = some (.ok x)) :
    ∃ p ∈ ps, f p = some (.ok x) := by
  induction ps with
  | nil => simp [firstOk] at h
  | cons p ps ih =>
    simp only [firstOk] at h
    split at h
    · cases h
    · rename_i y hy
      exact ⟨p, by simp, by rw [hy]; exact h⟩
    · obtain ⟨q, hq, hf⟩ := ih h
      exact ⟨q, by simp [hq], hf⟩

theorem firstOk_error {α : Type} (f : String → Option (Except Unit α)) (ps : List String) (u : Unit)
    (h : firstOk f ps = some (.error u)) : ∀ p ∈ ps, f p = some (.error ()) := by
  induction ps with
  | nil => simp
  | cons p ps ih =>
    simp only [firstOk] at h
    split at h
    · cases h
    · cases h
    · rename_i e hy
      intro q hq
      rcases List.mem_cons.mp hq with rfl | hq
      · exact hy
      · exact ih h q hq

theorem firstOk_returns {α : Type} (f : String → Option (Except Unit α)) (ps : List String) (h : ∀ p ∈ ps, f p ≠ none) :
    firstOk f ps ≠ none := by
  induction ps with
  | nil => simp [firstOk]
  | cons p ps ih =>
    simp only [firstOk]
    split
    · rename_i hn; exact absurd hn (h p (by simp))
    · simp
    · exact ih fun q hq => h q (by simp [hq])

theorem firstOk_mono {α : Type} (f f' : String → Option (Except Unit α)) (ps : List String) (r : Except Unit α)
    (hf : ∀ p ∈ ps, ∀ x, f p = some x → f' p = some x) (h : firstOk f ps = some r) : firstOk f' ps = some r := by
  induction ps with
  | nil => exact h
  | cons p ps ih =>
    simp only [firstOk] at h ⊢
    split at h
    · cases h
    · rename_i y hy
      rw [hf p (by simp) _ hy]; exact h
    · rename_i e hy
      rw [hf p (by simp) _ hy]
      exact ih (fun q hq => hf q (by simp [hq])) h

theorem getImportedScope_mono (g : ImportGraph) (n : Nat) (p name : String) (r : Except Unit String)
    (h : getImportedScope g n p name = some r) (k : Nat) : getImportedScope g (n + k) p name = some r := by
  induction n generalizing p r with
  | zero => simp [getImportedScope] at h
  | succ n ih =>
    rw [show n + 1 + k = (n + k) + 1 by omega]
    simp only [getImportedScope] at h ⊢
    split_ifs at h ⊢
    · exact h
    · exact h
    · exact h
    · exact firstOk_mono _ _ _ _ (fun q _ x hx => ih q x hx) h

theorem getOtherType_mono (g : ImportGraph) (d : String → Bool) (n : Nat) (p : String) (r : Except Unit String)
    (h : getOtherType g d n p = some r) (k : Nat) : getOtherType g d (n + k) p = some r := by
  induction n generalizing p r with
  | zero => simp [getOtherType] at h
  | succ n ih =>
    rw [show n + 1 + k = (n + k) + 1 by omega]
    simp only [getOtherType] at h ⊢
    split_ifs at h ⊢
    · exact h
    · exact firstOk_mono _ _ _ _ (fun q _ x hx => ih q x hx) h

/-- C36: whenever the search for a package returns, its answer is right: it finds the package only if it is reachable, and
fails only if it is not (or the name is empty).  For every import graph. -/
theorem C36_scope_correct (g : ImportGraph) (n : Nat) (p name : String) (r : Except Unit String)
    (h : getImportedScope g n p name = some r) :
    (∀ q, r = .ok q → q = name ∧ name ≠ "" ∧ Relation.ReflTransGen (Imports g) p name) ∧
    (r = .error () → name ≠ "" → ¬ Relation.ReflTransGen (Imports g) p name) := by
  induction n generalizing p r with
  | zero => simp [getImportedScope] at h
  | succ n ih =>
    simp only [getImportedScope] at h
    split_ifs at h with h1 h2 h3
    · cases h; exact ⟨by simp, fun _ hc => absurd h1 hc⟩
    · cases h; subst h2
      exact ⟨fun q hq => ⟨by cases hq; rfl, h1, .refl⟩, by simp⟩
    · cases h
      exact ⟨fun q hq => ⟨by cases hq; rfl, h1, .single h3⟩, by simp⟩
    · refine ⟨?_, ?_⟩
      · rintro q rfl
        obtain ⟨b, hb, hf⟩ := firstOk_ok _ _ _ h
        obtain ⟨e1, e2, e3⟩ := (ih b _ hf).1 q rfl
        exact ⟨e1, e2, .head hb e3⟩
      · rintro rfl _ hr
        rcases Relation.ReflTransGen.cases_head hr with he | ⟨b, hb, hr'⟩
        · exact h2 he.symm
        · exact (ih b _ (firstOk_error _ _ _ h b hb)).2 rfl h1 hr'

/-- C36: the same for the search for a symbol: it is found in a reachable package that declares it, and not found only if
no reachable package does. -/
theorem C36_symbol_correct (g : ImportGraph) (d : String → Bool) (n : Nat) (p : String) (r : Except Unit String)
    (h : getOtherType g d n p = some r) :
    (∀ q, r = .ok q → d q = true ∧ Relation.ReflTransGen (Imports g) p q) ∧
    (r = .error () → ∀ q, Relation.ReflTransGen (Imports g) p q → d q = false) := by
  induction n generalizing p r with
  | zero => simp [getOtherType] at h
  | succ n ih =>
    simp only [getOtherType] at h
    split_ifs at h with h1
    · cases h
      exact ⟨fun q hq => by cases hq; exact ⟨h1, .refl⟩, by simp⟩
    · refine ⟨?_, ?_⟩
      · rintro q rfl
        obtain ⟨b, hb, hf⟩ := firstOk_ok _ _ _ h
        obtain ⟨e1, e2⟩ := (ih b _ hf).1 q rfl
        exact ⟨e1, .head hb e2⟩
      · rintro rfl q hr
        rcases Relation.ReflTransGen.cases_head hr with he | ⟨b, hb, hr'⟩
        · subst he; simpa using h1
        · exact (ih b _ (firstOk_error _ _ _ h b hb)).2 rfl q hr'

theorem getImportedScope_returns (g : ImportGraph) (rank : String → Nat) (hr : ∀ a b, b ∈ g a → rank b < rank a) (name : String) :
    ∀ (n : Nat) (p : String), rank p < n → getImportedScope g n p name ≠ none := by
  intro n
  induction n with
  | zero => intro p h; omega
  | succ n ih =>
    intro p h
    simp only [getImportedScope]
    split_ifs
    · simp
    · simp
    · simp
    · exact firstOk_returns _ _ fun q hq => ih q (by have := hr p q hq; omega)

theorem getOtherType_returns (g : ImportGraph) (rank : String → Nat) (hr : ∀ a b, b ∈ g a → rank b < rank a) (d : String → Bool) :
    ∀ (n : Nat) (p : String), rank p < n → getOtherType g d n p ≠ none := by
  intro n
  induction n with
  | zero => intro p h; omega
  | succ n ih =>
    intro p h
    simp only [getOtherType]
    split_ifs
    · simp
    · exact firstOk_returns _ _ fun q hq => ih q (by have := hr p q hq; omega)

/-- C36: without import cycles (`rank` decreases along imports) the search for a package terminates and finds it exactly if
it is reachable. -/
theorem C36_scope_partial (g : ImportGraph) (rank : String → Nat) (hr : ∀ a b, b ∈ g a → rank b < rank a) (p name : String)
    (hn : name ≠ "") :
    ∃ n, (Relation.ReflTransGen (Imports g) p name ∧ ∀ k, getImportedScope g (n + k) p name = some (.ok name)) ∨
      (¬ Relation.ReflTransGen (Imports g) p name ∧ ∀ k, getImportedScope g (n + k) p name = some (.error ())) := by
  refine ⟨rank p + 1, ?_⟩
  obtain ⟨r, h⟩ := Option.ne_none_iff_exists'.mp (getImportedScope_returns g rank hr name (rank p + 1) p (by omega))
  have hm := getImportedScope_mono g _ p name r h
  obtain ⟨h1, h2⟩ := C36_scope_correct g _ p name r h
  cases r with
  | ok q =>
    obtain ⟨rfl, _, h3⟩ := h1 q rfl
    exact .inl ⟨h3, hm⟩
  | error u => exact .inr ⟨h2 rfl hn, hm⟩

/-- C36: the same for the search for a symbol. -/
theorem C36_symbol_partial (g : ImportGraph) (rank : String → Nat) (hr : ∀ a b, b ∈ g a → rank b < rank a) (d : String → Bool)
    (p : String) :
    ∃ n, (∃ q, d q = true ∧ Relation.ReflTransGen (Imports g) p q ∧ ∀ k, getOtherType g d (n + k) p = some (.ok q)) ∨
      ((∀ q, Relation.ReflTransGen (Imports g) p q → d q = false) ∧ ∀ k, getOtherType g d (n + k) p = some (.error ())) := by
  refine ⟨rank p + 1, ?_⟩
  obtain ⟨r, h⟩ := Option.ne_none_iff_exists'.mp (getOtherType_returns g rank hr d (rank p + 1) p (by omega))
  have hm := getOtherType_mono g d _ p r h
  obtain ⟨h1, h2⟩ := C36_symbol_correct g d _ p r h
  cases r with
  | ok q =>
    obtain ⟨h3, h4⟩ := h1 q rfl
    exact .inl ⟨q, h3, h4, hm⟩
  | error u => exact .inr ⟨h2 rfl, hm⟩

/-- A chain of three packages. -/
def chainGraph : ImportGraph := fun p => if p = "a" then ["b"] else if p = "b" then ["c"] else []

example : (∀ a b, b ∈ chainGraph a → (if b = "a" then 2 else if b = "b" then 1 else 0) < if a = "a" then 2 else if a = "b" then 1 else 0) ∧
    getImportedScope chainGraph 3 "a" "c" = some (.ok "c") ∧ getImportedScope chainGraph 4 "a" "d" = some (.error ()) := by
  refine ⟨?_, by decide +kernel, by decide +kernel⟩
  intro a b h
  unfold chainGraph at h
  split_ifs at h with h1 h2 <;> simp_all

/-- C36: with two packages that import each other the search for any name other than theirs does not terminate. -/
theorem C36_violated_cycle (name : String) (h0 : name ≠ "") (ha : name ≠ "a") (hb : name ≠ "b") (n : Nat) :
    getImportedScope (fun p => if p = "a" then ["b"] else if p = "b" then ["a"] else []) n "a" name = none ∧
    getOtherType (fun p => if p = "a" then ["b"] else if p = "b" then ["a"] else []) (fun _ => false) n "a" = none := by
  have key : ∀ n, ∀ p ∈ ["a", "b"],
      getImportedScope (fun p => if p = "a" then ["b"] else if p = "b" then ["a"] else []) n p name = none ∧
      getOtherType (fun p => if p = "a" then ["b"] else if p = "b" then ["a"] else []) (fun _ => false) n p = none := by
    intro n
    induction n with
    | zero => intro p _; exact ⟨rfl, rfl⟩
    | succ n ih =>
      intro p hp
      have i1 := ih "a" (by simp)
      have i2 := ih "b" (by simp)
      simp only [List.mem_cons, List.not_mem_nil, or_false] at hp
      rcases hp with rfl | rfl
      · exact ⟨by simp [getImportedScope, firstOk, h0, ha, hb, i2.1], by simp [getOtherType, firstOk, i2.2]⟩
      · exact ⟨by simp [getImportedScope, firstOk, h0, ha, hb, i1.1], by simp [getOtherType, firstOk, i1.2]⟩
  exact key n "a" (by simp)

/-! ## C48 -/

/-- A model as it comes out of the parser: packages have different non-empty names. -/
structure PkgModel.WF (m : PkgModel) : Prop where
  nodup : (m.map Pkg.name).Nodup
  named : ∀ q ∈ m, q.name ≠ ""

/-- Package `name` is part of the model and declares type `t`. -/
def PkgModel.Declares (m : PkgModel) (name t : String) : Prop := ∃ q ∈ m, q.name = name ∧ t ∈ q.types

/-- An import that makes type `t` visible. -/
def Import.Offers (m : PkgModel) (t : String) (i : Import) : Prop := (i.type = "*" ∨ i.type = t) ∧ m.Declares i.pkg t

theorem PkgModel.get_some {m : PkgModel} {n : String} {q : Pkg} (h : m.get n = some q) : q ∈ m ∧ q.name = n := by
  refine ⟨List.mem_of_find?_eq_some h, ?_⟩
  have := List.find?_some h
  simpa using this

theorem PkgModel.get_mem {m : PkgModel} (hw : m.WF) {q : Pkg} (hq : q ∈ m) : m.get q.name = some q := by
  have hn := hw.nodup
  clear hw
  induction m with
  | nil => cases hq
  | cons a m ih =>
    simp only [List.map_cons, List.nodup_cons] at hn
    rcases List.mem_cons.mp hq with rfl | hq
    · simp [PkgModel.get]
    · have hne : a.name ≠ q.name := fun hc => hn.1 (hc ▸ List.mem_map_of_mem hq)
      simp only [PkgModel.get, List.find?_cons, hne, decide_false] at ih ⊢
      exact ih hq hn.2

theorem PkgModel.declares_iff {m : PkgModel} (hw : m.WF) (n t : String) :
    m.Declares n t ↔ ∃ q, m.get n = some q ∧ q.hasType t = true := by
  constructor
  · rintro ⟨q, hq, rfl, ht⟩
    exact ⟨q, PkgModel.get_mem hw hq, by simpa [Pkg.hasType] using ht⟩
  · rintro ⟨q, hq, ht⟩
    obtain ⟨h1, h2⟩ := PkgModel.get_some hq
    exact ⟨q, h1, h2, by simpa [Pkg.hasType] using ht⟩

theorem findImport_spec {m : PkgModel} (hw : m.WF) (t : String) (is : List Import) (hk : ∀ i ∈ is, ∃ q ∈ m, q.name = i.pkg) :
    (∃ pre i post, is = pre ++ i :: post ∧ (∀ j ∈ pre, ¬ j.Offers m t) ∧ i.Offers m t ∧ findImport m t is = .ok i.pkg) ∨
    ((∀ j ∈ is, ¬ j.Offers m t) ∧ findImport m t is = .ok "") := by
  induction is with
  | nil => exact .inr ⟨by simp, rfl⟩
  | cons i is ih =>
    obtain ⟨q, hq, hqn⟩ := hk i (by simp)
    have hg : m.get i.pkg = some q := hqn ▸ PkgModel.get_mem hw hq
    have hd : m.Declares i.pkg t ↔ q.hasType t = true := by
      rw [PkgModel.declares_iff hw, hg]; simp
    simp only [findImport, hg]
    by_cases hm : (i.type = "*" ∨ i.type = t) ∧ q.hasType t = true
    · rw [if_pos hm]
      exact .inl ⟨[], i, is, rfl, by simp, ⟨hm.1, hd.mpr hm.2⟩, rfl⟩
    · rw [if_neg hm]
      have hno : ¬ i.Offers m t := fun hc => hm ⟨hc.1, hd.mp hc.2⟩
      rcases ih fun j hj => hk j (by simp [hj]) with ⟨pre, j, post, e1, e2, e3, e4⟩ | ⟨e1, e2⟩
      · refine .inl ⟨i :: pre, j, post, by simp [e1], ?_, e3, e4⟩
        intro k hk
        rcases List.mem_cons.mp hk with rfl | hk
        · exact hno
        · exact e2 k hk
      · refine .inr ⟨?_, e2⟩
        intro k hk
        rcases List.mem_cons.mp hk with rfl | hk
        · exact hno
        · exact e1 k hk

/-- C48: `ResolveImports` fails exactly if a package that is not part of the model is imported. -/
theorem C48_imports (m : PkgModel) (is : List Import) :
    (∃ l, resolveImports m is = .ok l) ↔ ∀ i ∈ is, ∃ q ∈ m, q.name = i.pkg := by
  induction is with
  | nil => simp [resolveImports]
  | cons i is ih =>
    cases hg : m.get i.pkg with
    | none =>
      have : ¬ ∃ q ∈ m, q.name = i.pkg := by
        rintro ⟨q, hq, hn⟩
        have := List.find?_eq_none.mp hg q hq
        simp [hn] at this
      simp only [resolveImports, hg, List.mem_cons, forall_eq_or_imp]
      constructor
      · rintro ⟨l, hl⟩; cases hl
      · rintro ⟨h, _⟩; exact absurd h this
    | some q =>
      obtain ⟨h1, h2⟩ := PkgModel.get_some hg
      simp only [resolveImports, hg, List.mem_cons, forall_eq_or_imp, ← ih]
      constructor
      · rintro ⟨l, hl⟩
        refine ⟨⟨q, h1, h2⟩, ?_⟩
        cases hr : resolveImports m is with
        | ok l => exact ⟨l, rfl⟩
        | error e => rw [hr] at hl; cases hl
      · rintro ⟨_, l, hl⟩
        rw [hl]
        exact ⟨_, rfl⟩

/-- C48: an unqualified reference is bound to the own package if that declares the name. -/
theorem C48_own (m : PkgModel) (hw : m.WF) (p : Pkg) (hp : p ∈ m) (t : String) (ht : t ∈ p.types) :
    resolvePackage m p "" t = .ok p.name := by
  have h1 : p.hasType t = true := by simpa [Pkg.hasType] using ht
  have := hw.named p hp
  simp [resolvePackage, h1, bind, Except.bind, this]

/-- C48: otherwise it is bound to the first import that offers it, and an error if there is none. -/
theorem C48_imported (m : PkgModel) (hw : m.WF) (p : Pkg) (t : String) (ht : t ∉ p.types)
    (hk : ∀ i ∈ p.imports, ∃ q ∈ m, q.name = i.pkg) :
    (∃ pre i post, p.imports = pre ++ i :: post ∧ (∀ j ∈ pre, ¬ j.Offers m t) ∧ i.Offers m t ∧
      resolvePackage m p "" t = .ok i.pkg) ∨
    ((∀ j ∈ p.imports, ¬ j.Offers m t) ∧ ∃ e, resolvePackage m p "" t = .error e) := by
  have h1 : p.hasType t = false := by simpa [Pkg.hasType] using ht
  rcases findImport_spec hw t p.imports hk with ⟨pre, i, post, e1, e2, e3, e4⟩ | ⟨e1, e2⟩
  · obtain ⟨q, hq, hqn, _⟩ := e3.2
    have hne : i.pkg ≠ "" := hqn ▸ hw.named q hq
    refine .inl ⟨pre, i, post, e1, e2, e3, ?_⟩
    simp only [resolvePackage, h1, e4, ne_eq, not_true_eq_false, if_false, Bool.false_eq_true]
    simp [bind, Except.bind, hne]
  · refine .inr ⟨e1, "unknown type " ++ t, ?_⟩
    simp only [resolvePackage, h1, e2, ne_eq, not_true_eq_false, if_false, Bool.false_eq_true]
    simp only [bind, Except.bind, if_true]

/-- C48: a qualified reference is accepted exactly if that package declares the name, and is left as it is. -/
theorem C48_qualified (m : PkgModel) (hw : m.WF) (p : Pkg) (q t : String) (hq : q ≠ "") :
    (m.Declares q t ∧ resolvePackage m p q t = .ok q) ∨ (¬ m.Declares q t ∧ ∃ e, resolvePackage m p q t = .error e) := by
  rw [PkgModel.declares_iff hw]
  cases hg : m.get q with
  | none =>
    refine .inr ⟨by simp, "unknown package " ++ q, ?_⟩
    simp only [resolvePackage, hg, if_pos hq]
    rfl
  | some k =>
    cases ht : k.hasType t with
    | true =>
      refine .inl ⟨⟨k, rfl, ht⟩, ?_⟩
      simp only [resolvePackage, hg, ht, if_pos hq, if_true]
      simp [bind, Except.bind, hq]
    | false =>
      refine .inr ⟨by simp [ht], "unknown type " ++ t, ?_⟩
      simp only [resolvePackage, hg, ht, if_pos hq, Bool.false_eq_true, if_false]
      rfl

theorem resolvePackage_declares (m : PkgModel) (hw : m.WF) (p : Pkg) (hp : p ∈ m)
    (hk : ∀ i ∈ p.imports, ∃ q ∈ m, q.name = i.pkg) (q t r : String) (h : resolvePackage m p q t = .ok r) :
    r ≠ "" ∧ m.Declares r t := by
  have key : m.Declares r t := by
    by_cases hq : q = ""
    · subst hq
      by_cases ht : t ∈ p.types
      · rw [C48_own m hw p hp t ht] at h
        cases h
        exact ⟨p, hp, rfl, ht⟩
      · rcases C48_imported m hw p t ht hk with ⟨_, i, _, _, _, e3, e4⟩ | ⟨_, e, e2⟩
        · rw [e4] at h; cases h; exact e3.2
        · rw [e2] at h; cases h
    · rcases C48_qualified m hw p q t hq with ⟨e1, e2⟩ | ⟨_, e, e2⟩
      · rw [e2] at h; cases h; exact e1
      · rw [e2] at h; cases h
  obtain ⟨k, hk, hn, _⟩ := id key
  exact ⟨hn ▸ hw.named k hk, key⟩

/-- Every name in a reference is bound to a package that declares it, template parameters and their arguments aside. -/
inductive TRef.Bound (m : PkgModel) (ignore : List String) : TRef → Prop where
  | builtin (q n : String) (as : List TRef) : TRef.Bound m ignore (.mk true q n as)
  | ref (q n : String) (as : List TRef) (h : m.Declares q n)
      (ha : ∀ b q' n' as', .mk b q' n' as' ∈ as → n' ∉ ignore → TRef.Bound m ignore (.mk b q' n' as')) :
      TRef.Bound m ignore (.mk false q n as)

mutual
theorem resolve_bound (m : PkgModel) (hw : m.WF) (p : Pkg) (hp : p ∈ m) (hk : ∀ i ∈ p.imports, ∃ q ∈ m, q.name = i.pkg)
    (ignore : List String) : ∀ (t t' : TRef), resolveTypeReference m p ignore t = .ok t' →
      t'.Bound m ignore ∧ resolveTypeReference m p ignore t' = .ok t'
  | .mk true q n as, t', h => by
    simp only [resolveTypeReference] at h
    cases h
    exact ⟨.builtin _ _ _, by simp [resolveTypeReference]⟩
  | .mk false q n as, t', h => by
    simp only [resolveTypeReference] at h
    cases h1 : resolvePackage m p q n with
    | error e => rw [h1] at h; cases h
    | ok r =>
      cases h2 : resolveTemplateArguments m p ignore as with
      | error e => rw [h1, h2] at h; cases h
      | ok as' =>
        rw [h1, h2] at h
        cases h
        obtain ⟨hne, hd⟩ := resolvePackage_declares m hw p hp hk q n r h1
        obtain ⟨hb, hi⟩ := resolveArgs_bound m hw p hp hk ignore as as' h2
        refine ⟨.ref r n as' hd hb, ?_⟩
        simp only [resolveTypeReference]
        rcases C48_qualified m hw p r n hne with ⟨_, e⟩ | ⟨hc, _⟩
        · rw [e, hi]; rfl
        · exact absurd hd hc
theorem resolveArgs_bound (m : PkgModel) (hw : m.WF) (p : Pkg) (hp : p ∈ m) (hk : ∀ i ∈ p.imports, ∃ q ∈ m, q.name = i.pkg)
    (ignore : List String) : ∀ (ts ts' : List TRef), resolveTemplateArguments m p ignore ts = .ok ts' →
      (∀ b q' n' as', TRef.mk b q' n' as' ∈ ts' → n' ∉ ignore → TRef.Bound m ignore (.mk b q' n' as')) ∧
        resolveTemplateArguments m p ignore ts' = .ok ts'
  | [], ts', h => by
    simp only [resolveTemplateArguments] at h
    cases h
    exact ⟨by simp, by simp [resolveTemplateArguments]⟩
  | .mk b q n as :: ts, ts', h => by
    simp only [resolveTemplateArguments] at h
    by_cases hn : n ∈ ignore
    · rw [if_pos hn] at h
      cases h2 : resolveTemplateArguments m p ignore ts with
      | error e => rw [h2] at h; cases h
      | ok us =>
        rw [h2] at h
        cases h
        obtain ⟨hb, hi⟩ := resolveArgs_bound m hw p hp hk ignore ts us h2
        refine ⟨?_, ?_⟩
        · intro b' q' n' as' hm hnn
          rcases List.mem_cons.mp hm with he | hm
          · cases he; exact absurd hn hnn
          · exact hb _ _ _ _ hm hnn
        · simp only [resolveTemplateArguments, if_pos hn, hi]; rfl
    · rw [if_neg hn] at h
      cases h1 : resolveTypeReference m p ignore (.mk b q n as) with
      | error e => rw [h1] at h; cases h
      | ok t =>
        cases h2 : resolveTemplateArguments m p ignore ts with
        | error e => rw [h1, h2] at h; cases h
        | ok us =>
          rw [h1, h2] at h
          cases h
          obtain ⟨hb, hi⟩ := resolveArgs_bound m hw p hp hk ignore ts us h2
          obtain ⟨hb1, hi1⟩ := resolve_bound m hw p hp hk ignore (.mk b q n as) t h1
          refine ⟨?_, ?_⟩
          · intro b' q' n' as' hm hnn
            rcases List.mem_cons.mp hm with he | hm
            · rw [he]; exact hb1
            · exact hb _ _ _ _ hm hnn
          · obtain ⟨b', q', n', as'⟩ := t
            have hnn : n' = n := by
              cases b
              · simp only [resolveTypeReference] at h1
                cases h3 : resolvePackage m p q n with
                | error e => rw [h3] at h1; cases h1
                | ok r =>
                  cases h4 : resolveTemplateArguments m p ignore as with
                  | error e => rw [h3, h4] at h1; cases h1
                  | ok as'' => rw [h3, h4] at h1; cases h1; rfl
              · simp only [resolveTypeReference] at h1; cases h1; rfl
            subst hnn
            simp only [resolveTemplateArguments, if_neg hn, hi1, hi]; rfl
end

/-- C48: after resolution every name, also in nested template arguments, is bound to a package that declares it. -/
theorem C48_bound (m : PkgModel) (hw : m.WF) (p : Pkg) (hp : p ∈ m) (hk : ∀ i ∈ p.imports, ∃ q ∈ m, q.name = i.pkg)
    (ignore : List String) (t t' : TRef) (h : resolveTypeReference m p ignore t = .ok t') : t'.Bound m ignore :=
  (resolve_bound m hw p hp hk ignore t t' h).1

/-- C48: resolving again changes nothing. -/
theorem C48_idempotent (m : PkgModel) (hw : m.WF) (p : Pkg) (hp : p ∈ m) (hk : ∀ i ∈ p.imports, ∃ q ∈ m, q.name = i.pkg)
    (ignore : List String) (t t' : TRef) (h : resolveTypeReference m p ignore t = .ok t') :
    resolveTypeReference m p ignore t' = .ok t' :=
  (resolve_bound m hw p hp hk ignore t t' h).2

/-- Package `a` imports all of `b` and one type of `c`; `b` and `c` both declare `T`. -/
def sampleModel : PkgModel :=
  [⟨"a", [⟨"b", "*"⟩, ⟨"c", "U"⟩, ⟨"c", "T"⟩], ["S"]⟩, ⟨"b", [], ["T"]⟩, ⟨"c", [], ["T", "U"]⟩]

theorem sampleModel_wf : sampleModel.WF := ⟨by decide +kernel, by decide +kernel⟩

example : resolvePackage sampleModel sampleModel[0] "" "S" = .ok "a" ∧ resolvePackage sampleModel sampleModel[0] "" "T" = .ok "b" ∧
    resolvePackage sampleModel sampleModel[0] "" "U" = .ok "c" ∧ resolvePackage sampleModel sampleModel[0] "" "V" = .error "unknown type V" ∧
    (∀ i ∈ sampleModel[0].imports, ∃ q ∈ sampleModel, q.name = i.pkg) := by
  decide +kernel

/-! ## C49 -/

theorem mem_resolveImports (m : PkgModel) (is : List Import) (l : List String) (h : resolveImports m is = .ok l) (i : Import)
    (hi : i ∈ is) (hs : i.type = "*") : i.pkg ∈ l := by
  induction is generalizing l with
  | nil => cases hi
  | cons j is ih =>
    simp only [resolveImports] at h
    cases hg : m.get j.pkg with
    | none => rw [hg] at h; cases h
    | some q =>
      rw [hg] at h
      cases hr : resolveImports m is with
      | error e => simp only [hr] at h; cases h
      | ok rest =>
        simp only [hr] at h
        injection h with h
        subst h
        rcases List.mem_cons.mp hi with rfl | hi
        · rw [if_pos hs, (PkgModel.get_some hg).2]; simp
        · have := ih rest hr hi
          split_ifs
          · exact List.mem_cons_of_mem _ this
          · exact this

/-- C49: a reference bound to the own package or to a package imported as a whole is found again by the lookups of the
generator, in one step.  Missing: imports of a single type and qualified names, for which it fails, see
`C49_violated_single_import`. -/
theorem C49_lookup_partial (m : PkgModel) (hw : m.WF) (p : Pkg) (hp : p ∈ m) (hk : ∀ i ∈ p.imports, ∃ q ∈ m, q.name = i.pkg)
    (r : String) (h : r = p.name ∨ ∃ i ∈ p.imports, i.type = "*" ∧ i.pkg = r) (n : Nat) :
    getImportedScope m.graph (n + 1) p.name r = some (.ok r) := by
  have hne : r ≠ "" := by
    rcases h with rfl | ⟨i, hi, _, rfl⟩
    · exact hw.named p hp
    · obtain ⟨q, hq, hn⟩ := hk i hi
      exact hn ▸ hw.named q hq
  simp only [getImportedScope, if_neg hne]
  by_cases he : r = p.name
  · rw [if_pos he, he]
  · rw [if_neg he]
    rcases h with rfl | ⟨i, hi, hs, rfl⟩
    · exact absurd rfl he
    · obtain ⟨l, hl⟩ := (C48_imports m p.imports).mpr hk
      have hg : m.graph p.name = l := by
        simp [PkgModel.graph, PkgModel.get_mem hw hp, hl]
      rw [if_pos (hg ▸ mem_resolveImports m p.imports l hl i hi hs)]

example : getImportedScope sampleModel.graph 1 "a" "b" = some (.ok "b") := by decide +kernel

/-- C49: a type imported by itself is accepted by type resolution, and not found afterwards. -/
theorem C49_violated_single_import :
    ∃ m : PkgModel, m.WF ∧ ∃ p ∈ m, resolvePackage m p "" "T" = .ok "b" ∧
      ∀ n, getImportedScope m.graph (n + 1) p.name "b" = some (.error ()) := by
  refine ⟨[⟨"a", [⟨"b", "T"⟩], []⟩, ⟨"b", [], ["T"]⟩], ⟨by decide +kernel, by decide +kernel⟩, ⟨"a", [⟨"b", "T"⟩], []⟩,
    by simp, by decide +kernel, ?_⟩
  intro n
  have hg : PkgModel.graph [⟨"a", [⟨"b", "T"⟩], []⟩, ⟨"b", [], ["T"]⟩] "a" = [] := by decide +kernel
  simp only [getImportedScope, hg]
  rw [if_neg (by decide), if_neg (by decide), if_neg (by simp)]
  rfl

/-- C49: so is a qualified name of a package that is not imported at all. -/
theorem C49_violated_qualified :
    ∃ m : PkgModel, m.WF ∧ ∃ p ∈ m, p.imports = [] ∧ resolvePackage m p "b" "T" = .ok "b" ∧
      ∀ n, getImportedScope m.graph (n + 1) p.name "b" = some (.error ()) := by
  refine ⟨[⟨"a", [], []⟩, ⟨"b", [], ["T"]⟩], ⟨by decide +kernel, by decide +kernel⟩, ⟨"a", [], []⟩, by simp, rfl,
    by decide +kernel, ?_⟩
  intro n
  have hg : PkgModel.graph [⟨"a", [], []⟩, ⟨"b", [], ["T"]⟩] "a" = [] := by decide +kernel
  simp only [getImportedScope, hg]
  rw [if_neg (by decide), if_neg (by decide), if_neg (by simp)]
  rfl

end Verif
