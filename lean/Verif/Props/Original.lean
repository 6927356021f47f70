import Verif.Original
import Verif.Props.Imports

/-!
# C39: original types
-/

namespace Verif

/-- One link: the reference names a subtype (field, parameter) of its package, which is declared to be `t'`. -/
def World.Link (w : World) (t t' : TyRef) : Prop := t.builtin = false ∧ w.types t.pkg t.name = some (.link t')

/-- `n` links lead from `t` to `t'`. -/
inductive World.Links (w : World) : TyRef → Nat → TyRef → Prop where
  | refl (t : TyRef) : World.Links w t 0 t
  | step (t t' t'' : TyRef) (n : Nat) (h : w.Link t t') (hs : World.Links w t' n t'') : World.Links w t (n + 1) t''

/-- A reference whose package declares its name, and is visible from package `p`. -/
def World.Good (w : World) (p : String) (t : TyRef) : Prop :=
  t.builtin = true ∨ (t.pkg ≠ "" ∧ Relation.ReflTransGen (Imports w.g) p t.pkg ∧ w.types t.pkg t.name ≠ none)

/-- A model after type resolution without import cycles (`rank` decreases along imports), in which packages see the packages
their declarations refer to (C49). -/
structure World.WF (w : World) (rank : String → Nat) : Prop where
  acyclic : ∀ a b, b ∈ w.g a → rank b < rank a
  good : ∀ q n t, w.types q n = some (.link t) → w.Good q t

theorem getSymbol_own (w : World) (fuel : Nat) (p name : String) (s : Sym) (h : w.types p name = some s) :
    getSymbol w fuel p name = some (.ok (s, p)) := by
  simp [getSymbol, firstIn, h]

theorem scope_found (w : World) (rank : String → Nat) (hw : w.WF rank) (p q : String) (hq : q ≠ "")
    (hr : Relation.ReflTransGen (Imports w.g) p q) (n : Nat) (hn : rank p < n) : getImportedScope w.g n p q = some (.ok q) := by
  obtain ⟨r, h⟩ := Option.ne_none_iff_exists'.mp (getImportedScope_returns w.g rank hw.acyclic q n p hn)
  obtain ⟨h1, h2⟩ := C36_scope_correct w.g n p q r h
  cases r with
  | ok x => obtain ⟨rfl, _⟩ := h1 x rfl; exact h
  | error u => exact absurd hr (h2 rfl hq)

theorem Good.next {w : World} {rank : String → Nat} (hw : w.WF rank) {p : String} {t t' : TyRef} (hg : w.Good p t)
    (hl : w.Link t t') : w.Good p t' := by
  rcases hg with hb | ⟨_, hr, _⟩
  · rw [hl.1] at hb; cases hb
  · rcases hw.good _ _ _ hl.2 with hb | ⟨h1, h2, h3⟩
    · exact .inl hb
    · exact .inr ⟨h1, hr.trans h2, h3⟩

theorem originalLoop_link {w : World} {rank : String → Nat} (hw : w.WF rank) {p : String} {t t' : TyRef} (hg : w.Good p t)
    (hl : w.Link t t') (n : Nat) (hn : rank p < n) (cast : Bool) :
    originalLoop w n p 0 cast t = some (.error ()) ∧ ∀ k, originalLoop w n p (k + 1) cast t = originalLoop w n p k true t' := by
  rcases hg with hb | ⟨h1, h2, _⟩
  · rw [hl.1] at hb; cases hb
  · have hs := scope_found w rank hw p t.pkg h1 h2 n hn
    have hy := getSymbol_own w n t.pkg t.name _ hl.2
    constructor
    · unfold originalLoop; simp [hl.1, hs, hy]
    · intro k
      conv_lhs => unfold originalLoop
      simp [hl.1, hs, hy]

/-- The answer for a reference that is not a link. -/
def World.endResult (w : World) (t : TyRef) (cast : Bool) : Except Unit OrigType :=
  if t.builtin then .ok ⟨t, cast, false⟩
  else if w.types t.pkg t.name = some .compound then .ok ⟨t, cast, true⟩ else .error ()

theorem originalLoop_end {w : World} {rank : String → Nat} (hw : w.WF rank) {p : String} {t : TyRef} (hg : w.Good p t)
    (he : ¬ ∃ t', w.Link t t') (n : Nat) (hn : rank p < n) (k : Nat) (cast : Bool) :
    originalLoop w n p k cast t = some (w.endResult t cast) := by
  unfold World.endResult originalLoop
  cases hb : t.builtin
  · rcases hg with hb' | ⟨h1, h2, h3⟩
    · rw [hb] at hb'; cases hb'
    · have hs := scope_found w rank hw p t.pkg h1 h2 n hn
      obtain ⟨s, hty⟩ := Option.ne_none_iff_exists'.mp h3
      have hy := getSymbol_own w n t.pkg t.name s hty
      cases s with
      | link t' => exact absurd ⟨t', hb, hty⟩ he
      | _ => simp [hs, hy, hty]
  · simp

theorem originalLoop_links {w : World} {rank : String → Nat} (hw : w.WF rank) {p : String} {t t' : TyRef} {m : Nat}
    (hl : w.Links t m t') (hg : w.Good p t) (n : Nat) (hn : rank p < n) :
    w.Good p t' ∧ ∀ k cast, originalLoop w n p (m + k) cast t = originalLoop w n p k (cast || decide (m ≠ 0)) t' := by
  induction hl with
  | refl t => exact ⟨hg, fun k cast => by simp⟩
  | step t t1 t2 m h hs ih =>
    obtain ⟨i1, i2⟩ := ih (Good.next hw hg h)
    refine ⟨i1, fun k cast => ?_⟩
    rw [show m + 1 + k = (m + k) + 1 by omega, (originalLoop_link hw hg h n hn cast).2, i2]
    simp

/-- C39: a chain of at most 100 links to a builtin or compound type resolves to the end of the chain, a cast is needed
exactly if the chain has a link, and the type is a marshaler exactly if it is not builtin.
Missing: longer chains, for which it fails, see `C39_violated_long_chain`. -/
theorem C39_resolves_partial (w : World) (rank : String → Nat) (hw : w.WF rank) (p : String) (t t' : TyRef) (m : Nat)
    (hl : w.Links t m t') (hg : w.Good p t) (hm : m ≤ 100)
    (he : t'.builtin = true ∨ w.types t'.pkg t'.name = some .compound) (n : Nat) (hn : rank p < n) :
    getOriginalType w n p t = some (.ok ⟨t', decide (m ≠ 0), !t'.builtin⟩) := by
  obtain ⟨i1, i2⟩ := originalLoop_links hw hl hg n hn
  have hne : ¬ ∃ t'', w.Link t' t'' := by
    rintro ⟨t'', h1, h2⟩
    rcases he with he | he
    · rw [he] at h1; cases h1
    · rw [he] at h2; cases h2
  have := i2 (100 - m) false
  rw [show m + (100 - m) = 100 by omega, originalLoop_end hw i1 hne n hn] at this
  rw [getOriginalType, this]
  unfold World.endResult
  rcases he with he | he <;> cases hb : t'.builtin <;> simp_all

theorem World.Links.split {w : World} {t t' : TyRef} (a b : Nat) (h : w.Links t (a + b) t') :
    ∃ u, w.Links t a u ∧ w.Links u b t' := by
  induction a generalizing t with
  | zero => exact ⟨t, .refl t, by simpa using h⟩
  | succ a ih =>
    rw [show a + 1 + b = (a + b) + 1 by omega] at h
    cases h with
    | step _ t1 _ _ hl hs =>
      obtain ⟨u, h1, h2⟩ := ih hs
      exact ⟨u, .step _ _ _ _ hl h1, h2⟩

theorem World.Links.trans {w : World} {t u t' : TyRef} {a b : Nat} (h1 : w.Links t a u) (h2 : w.Links u b t') :
    w.Links t (a + b) t' := by
  induction h1 with
  | refl => simpa using h2
  | step t t1 u a hl _ ih =>
    rw [show a + 1 + b = (a + b) + 1 by omega]
    exact .step _ _ _ _ hl (ih h2)

/-- C39: more than 100 links are an error. -/
theorem C39_too_long (w : World) (rank : String → Nat) (hw : w.WF rank) (p : String) (t t' : TyRef) (m : Nat)
    (hl : w.Links t m t') (hg : w.Good p t) (hm : 100 < m) (n : Nat) (hn : rank p < n) :
    getOriginalType w n p t = some (.error ()) := by
  obtain ⟨u, h1, h2⟩ := World.Links.split 100 (m - 100) (by rwa [show 100 + (m - 100) = m by omega])
  obtain ⟨i1, i2⟩ := originalLoop_links hw h1 hg n hn
  obtain ⟨k, hk⟩ : ∃ k, m - 100 = k + 1 := ⟨m - 101, by omega⟩
  rw [hk] at h2
  cases h2 with
  | step _ t1 _ _ hl _ =>
    have := i2 0 false
    rw [getOriginalType, this]
    exact (originalLoop_link hw i1 hl n hn _).1

/-- C39: a chain that runs into a cycle is reported as an error; the search does not loop. -/
theorem C39_cyclic (w : World) (rank : String → Nat) (hw : w.WF rank) (p : String) (t u : TyRef) (m c : Nat)
    (hl : w.Links t m u) (hc : w.Links u (c + 1) u) (hg : w.Good p t) (n : Nat) (hn : rank p < n) :
    getOriginalType w n p t = some (.error ()) := by
  have key : ∀ j, w.Links u (j * (c + 1)) u := by
    intro j
    induction j with
    | zero => simpa using World.Links.refl (w := w) u
    | succ j ih =>
      rw [Nat.succ_mul]
      exact ih.trans hc
  refine C39_too_long w rank hw p t u (m + 101 * (c + 1)) (hl.trans (key 101)) hg ?_ n hn
  have : 101 * (c + 1) ≥ 101 := Nat.le_mul_of_pos_right _ (by omega)
  omega

/-- C39: a chain that ends in something that is not a type is an error. -/
theorem C39_not_a_type (w : World) (rank : String → Nat) (hw : w.WF rank) (p : String) (t t' : TyRef) (m : Nat)
    (hl : w.Links t m t') (hg : w.Good p t) (hb : t'.builtin = false) (s : Sym) (hs : w.types t'.pkg t'.name = some s)
    (h1 : s ≠ .compound) (h2 : ∀ t'', s ≠ .link t'') (n : Nat) (hn : rank p < n) :
    getOriginalType w n p t = some (.error ()) := by
  by_cases hm : m ≤ 100
  · obtain ⟨i1, i2⟩ := originalLoop_links hw hl hg n hn
    have hne : ¬ ∃ t'', w.Link t' t'' := by
      rintro ⟨t'', _, h⟩
      rw [hs] at h; injection h with h; exact h2 t'' h
    have := i2 (100 - m) false
    rw [show m + (100 - m) = 100 by omega, originalLoop_end hw i1 hne n hn] at this
    rw [getOriginalType, this]
    simp [World.endResult, hb, hs, h1]
  · exact C39_too_long w rank hw p t t' m hl hg (by omega) n hn

/-- Package `a` imports `b`; `a.A` is `b.B`, `b.B` is `uint8`, `a.S` is a struct, `a.X` and `a.Y` are each other. -/
def sampleWorld : World where
  g := fun p => if p = "a" then ["b"] else []
  types := fun p n =>
    if (p, n) = ("a", "A") then some (.link ⟨false, "b", "B"⟩)
    else if (p, n) = ("b", "B") then some (.link ⟨true, "", "uint8"⟩)
    else if (p, n) = ("a", "S") then some .compound
    else if (p, n) = ("a", "X") then some (.link ⟨false, "a", "Y"⟩)
    else if (p, n) = ("a", "Y") then some (.link ⟨false, "a", "X"⟩)
    else none
  compound := fun _ _ => none
  others := fun _ _ => none

theorem sampleWorld_wf : sampleWorld.WF (fun p => if p = "a" then 1 else 0) where
  acyclic := by
    intro a b h
    simp only [sampleWorld] at h
    split_ifs at h <;> simp_all
  good := by
    have hab : Relation.ReflTransGen (Imports sampleWorld.g) "a" "b" := .single (by simp [Imports, sampleWorld])
    intro q n t h
    simp only [sampleWorld] at h
    split_ifs at h with h1 h2 h3 h4 h5
    · injection h with h; injection h with h; subst h
      injection h1 with h1 _; subst h1
      exact .inr ⟨by decide, hab, by decide +kernel⟩
    · injection h with h; injection h with h; subst h
      exact .inl rfl
    · injection h with h; injection h
    · injection h with h; injection h with h; subst h
      injection h4 with h4 _; subst h4
      exact .inr ⟨by decide, .refl, by decide +kernel⟩
    · injection h with h; injection h with h; subst h
      injection h5 with h5 _; subst h5
      exact .inr ⟨by decide, .refl, by decide +kernel⟩

example : sampleWorld.Links ⟨false, "a", "A"⟩ 2 ⟨true, "", "uint8"⟩ ∧
    getOriginalType sampleWorld 2 "a" ⟨false, "a", "A"⟩ = some (.ok ⟨⟨true, "", "uint8"⟩, true, false⟩) ∧
    getOriginalType sampleWorld 2 "a" ⟨false, "a", "S"⟩ = some (.ok ⟨⟨false, "a", "S"⟩, false, true⟩) ∧
    getOriginalType sampleWorld 2 "a" ⟨false, "a", "X"⟩ = some (.error ()) := by
  refine ⟨.step _ ⟨false, "b", "B"⟩ _ _ ⟨rfl, by decide +kernel⟩ (.step _ _ _ _ ⟨rfl, by decide +kernel⟩ (.refl _)),
    by decide +kernel, by decide +kernel, by decide +kernel⟩

/-- A package with a chain of subtypes: the name with `i` letters is the name with `i + 1` letters, up to 100. -/
def longWorld : World where
  g := fun _ => []
  types := fun p n =>
    if p = "a" then
      if n.length < 100 then some (.link ⟨false, "a", n.push 'x'⟩)
      else if n.length = 100 then some (.link ⟨true, "", "uint8"⟩) else none
    else none
  compound := fun _ _ => none
  others := fun _ _ => none

theorem longWorld_wf : longWorld.WF (fun _ => 0) where
  acyclic := by intro a b h; simp [longWorld] at h
  good := by
    intro q n t h
    simp only [longWorld] at h
    split_ifs at h with h1 h2 h3
    · injection h with h; injection h with h; subst h; subst h1
      refine .inr ⟨by simp, .refl, ?_⟩
      simp only [longWorld, String.length_push]
      (split_ifs <;> simp_all); omega
    · injection h with h; injection h with h; subst h
      exact .inl rfl

theorem longWorld_links (i : Nat) (s : String) (h : s.length + i = 100) :
    longWorld.Links ⟨false, "a", s⟩ (i + 1) ⟨true, "", "uint8"⟩ := by
  induction i generalizing s with
  | zero =>
    refine .step _ ⟨true, "", "uint8"⟩ _ _ ⟨rfl, ?_⟩ (.refl _)
    simp only [longWorld]
    rw [if_pos trivial, if_neg (by omega), if_pos (by omega)]
  | succ i ih =>
    refine .step _ ⟨false, "a", s.push 'x'⟩ _ _ ⟨rfl, ?_⟩ (ih _ (by simp; omega))
    simp only [longWorld]
    rw [if_pos trivial, if_pos (by omega)]

/-- C39: a chain of 101 subtypes that ends in a builtin type is rejected as circular. -/
theorem C39_violated_long_chain :
    longWorld.Links ⟨false, "a", ""⟩ 101 ⟨true, "", "uint8"⟩ ∧ longWorld.Good "a" ⟨false, "a", ""⟩ ∧
      ∀ n, getOriginalType longWorld (n + 1) "a" ⟨false, "a", ""⟩ = some (.error ()) := by
  have h1 := longWorld_links 100 "" (by decide)
  have h2 : longWorld.Good "a" ⟨false, "a", ""⟩ := .inr ⟨by decide, .refl, by decide +kernel⟩
  exact ⟨h1, h2, fun n => C39_too_long _ _ longWorld_wf "a" _ _ 101 h1 h2 (by omega) (n + 1) (by omega)⟩

/-! ## The symbol behind a reference -/

theorem symbolLoop_ref {w : World} {rank : String → Nat} (hw : w.WF rank) {p : String} {t : TyRef} {s0 : Sym × String} {s : Sym}
    (h0 : s0.1.final = false) (ht : s0.1.target = some t) (hb : t.builtin = false) (hpk : t.pkg ≠ "")
    (hr : Relation.ReflTransGen (Imports w.g) p t.pkg) (hs : w.types t.pkg t.name = some s) (n : Nat) (hn : rank p < n) :
    symbolLoop w n 0 p s0 = some (.error ()) ∧ ∀ k, symbolLoop w n (k + 1) p s0 = symbolLoop w n k t.pkg (s, t.pkg) := by
  have hsc := scope_found w rank hw p t.pkg hpk hr n hn
  have hy := getSymbol_own w n t.pkg t.name _ hs
  constructor
  · unfold symbolLoop; simp [h0, ht, hb, hsc, hy]
  · intro k
    conv_lhs => unfold symbolLoop
    simp [h0, ht, hb, hsc, hy]

theorem rank_reach {w : World} {rank : String → Nat} (hw : w.WF rank) {p q : String}
    (hr : Relation.ReflTransGen (Imports w.g) p q) : rank q ≤ rank p := by
  induction hr with
  | refl => exact Nat.le_refl _
  | tail _ h ih => exact Nat.le_trans (Nat.le_of_lt (hw.acyclic _ _ h)) ih

theorem symbolLoop_links {w : World} {rank : String → Nat} (hw : w.WF rank) {t t' : TyRef} {m : Nat} (hl : w.Links t m t') :
    ∀ (p : String) (s0 : Sym × String), s0.1.final = false → s0.1.target = some t → w.Good p t → ∀ n, rank p < n →
      ∃ p' s1, s1.1.final = false ∧ s1.1.target = some t' ∧ w.Good p' t' ∧ rank p' ≤ rank p ∧
        ∀ k, symbolLoop w n (m + k) p s0 = symbolLoop w n k p' s1 := by
  induction hl with
  | refl t =>
    intro p s0 h0 ht hg n hn
    exact ⟨p, s0, h0, ht, hg, Nat.le_refl _, fun k => by simp⟩
  | step t t1 t2 m h hs ih =>
    intro p s0 h0 ht hg n hn
    rcases hg with hb | ⟨g1, g2, g3⟩
    · rw [h.1] at hb; cases hb
    · have hrk := rank_reach hw g2
      obtain ⟨p', s1, i1, i2, i3, i4, i5⟩ := ih t.pkg (.link t1, t.pkg) rfl rfl (hw.good _ _ _ h.2) n (by omega)
      refine ⟨p', s1, i1, i2, i3, by omega, fun k => ?_⟩
      rw [show m + 1 + k = (m + k) + 1 by omega, (symbolLoop_ref hw h0 ht h.1 g1 g2 h.2 n hn).2, i5]

/-- C39: `GetOriginalSymbol` of a reference finds the declaration at the end of a chain of fewer than 100 links, or the
builtin type. -/
theorem C39_symbol_partial (w : World) (rank : String → Nat) (hw : w.WF rank) (p x : String) (t t' : TyRef) (m : Nat)
    (hl : w.Links t m t') (hg : w.Good p t) (hm : m < 100) (n : Nat) (hn : rank p < n) :
    (t'.builtin = true → getOriginalSymbol w n p (.ref t, x) = some (.ok (.ref t', ""))) ∧
    (t'.builtin = false → w.types t'.pkg t'.name = some .compound →
      getOriginalSymbol w n p (.ref t, x) = some (.ok (.compound, t'.pkg))) := by
  obtain ⟨p', s1, i1, i2, i3, i4, i5⟩ := symbolLoop_links hw hl p (.ref t, x) rfl rfl hg n hn
  have h := i5 (100 - m)
  rw [show m + (100 - m) = 100 by omega] at h
  obtain ⟨j, hj⟩ : ∃ j, 100 - m = j + 1 := ⟨99 - m, by omega⟩
  constructor
  · intro hb
    rw [getOriginalSymbol, h]
    unfold symbolLoop
    simp [i1, i2, hb]
  · intro hb hc
    rcases i3 with hb' | ⟨g1, g2, _⟩
    · rw [hb] at hb'; cases hb'
    · rw [getOriginalSymbol, h, hj, (symbolLoop_ref hw i1 i2 hb g1 g2 hc n (by omega)).2]
      unfold symbolLoop
      simp [Sym.final]

example : getOriginalSymbol sampleWorld 2 "a" (.ref ⟨false, "a", "A"⟩, "") = some (.ok (.ref ⟨true, "", "uint8"⟩, "")) ∧
    getOriginalSymbol sampleWorld 2 "a" (.ref ⟨false, "a", "S"⟩, "") = some (.ok (.compound, "a")) := by
  decide +kernel

/-- C39: an enum, bitmask, struct, union or choice, an enum item or a function is itself what it stands for; a constant stands
for no type. -/
theorem C39_symbol_itself (w : World) (n : Nat) (p x : String) :
    getOriginalSymbol w n p (.compound, x) = some (.ok (.compound, x)) ∧
    getOriginalSymbol w n p (.member, x) = some (.ok (.member, x)) ∧
    getOriginalSymbol w n p (.other, x) = some (.error ()) := by
  refine ⟨?_, ?_, ?_⟩ <;> rw [getOriginalSymbol] <;> unfold symbolLoop <;> rfl

/-! ## C36: names in a package -/

theorem firstIn_none {table : String → String → Option Sym} {name : String} {l : List String}
    (h : ∀ q ∈ l, table q name = none) : firstIn table name l = none := by
  induction l with
  | nil => rfl
  | cons q qs ih =>
    rw [firstIn, h q (by simp)]
    exact ih fun q' hq => h q' (by simp [hq])

theorem firstIn_split {table : String → String → Option Sym} {name q : String} {pre post : List String} {s : Sym}
    (h : ∀ q' ∈ pre, table q' name = none) (hq : table q name = some s) :
    firstIn table name (pre ++ q :: post) = some (s, q) := by
  induction pre with
  | nil => rw [List.nil_append, firstIn, hq]
  | cons q' qs ih =>
    rw [List.cons_append, firstIn, h q' (by simp)]
    exact ih fun q'' hq' => h q'' (by simp [hq'])

/-- C36: a name stands for the type of this name, in the package itself or else in the first of the packages it imports that
has one; whatever else has the name, in whatever package. -/
theorem C36_name_type (w : World) (n : Nat) (p name q : String) (pre post : List String) (s : Sym)
    (hp : p :: w.g p = pre ++ q :: post) (h : ∀ q' ∈ pre, w.types q' name = none) (hq : w.types q name = some s) :
    getSymbol w n p name = some (.ok (s, q)) := by
  rw [getSymbol, hp, firstIn_split h hq]

/-- C36: if no type has the name, it stands for the member of the declaration at hand, in the package itself or else in the
first of the packages it imports that has one. -/
theorem C36_name_member (w : World) (n : Nat) (p name q : String) (pre post : List String) (s : Sym)
    (ht : ∀ q' ∈ p :: w.g p, w.types q' name = none)
    (hp : p :: w.g p = pre ++ q :: post) (h : ∀ q' ∈ pre, w.compound q' name = none) (hq : w.compound q name = some s) :
    getSymbol w n p name = some (.ok (s, q)) := by
  rw [getSymbol, firstIn_none ht]
  dsimp only
  rw [hp, firstIn_split h hq]

/-- C36: if neither a type nor a member has the name, the search ends, given that imports do not form a cycle; it finds what
has the name in a package that the imports lead to, and fails exactly if there is no such package.
Missing: imports that form a cycle, for which the search need not end, see `C36_violated_cycle`. -/
theorem C36_name_other_partial (w : World) (rank : String → Nat) (hr : ∀ a b, b ∈ w.g a → rank b < rank a) (p name : String)
    (ht : ∀ q ∈ p :: w.g p, w.types q name = none) (hc : ∀ q ∈ p :: w.g p, w.compound q name = none) :
    ∃ n, (∃ q s, Relation.ReflTransGen (Imports w.g) p q ∧ w.others q name = some s ∧
        ∀ k, getSymbol w (n + k) p name = some (.ok (s, q))) ∨
      ((∀ q, Relation.ReflTransGen (Imports w.g) p q → w.others q name = none) ∧
        ∀ k, getSymbol w (n + k) p name = some (.error ())) := by
  obtain ⟨n, h⟩ := C36_symbol_partial w.g rank hr (fun q => (w.others q name).isSome) p
  refine ⟨n, ?_⟩
  rcases h with ⟨q, h1, h2, h3⟩ | ⟨h1, h2⟩
  · obtain ⟨s, hs⟩ := Option.isSome_iff_exists.mp h1
    refine .inl ⟨q, s, h2, hs, fun k => ?_⟩
    rw [getSymbol, firstIn_none ht, firstIn_none hc]
    simp only [h3 k, hs]
  · refine .inr ⟨fun q hq => by simpa using h1 q hq, fun k => ?_⟩
    rw [getSymbol, firstIn_none ht, firstIn_none hc]
    simp only [h2 k]

/-- Package `a` imports `b`, which imports `c`; `b` has a type `T`, `c` an item `red`, and `a` an item `T`. -/
def namesWorld : World where
  g := fun p => if p = "a" then ["b"] else if p = "b" then ["c"] else []
  types := fun q n => if q = "b" ∧ n = "T" then some .compound else none
  compound := fun _ _ => none
  others := fun q n => if q = "a" ∧ n = "T" ∨ q = "c" ∧ n = "red" then some .member else none

example : getSymbol namesWorld 0 "a" "T" = some (.ok (.compound, "b")) :=
  C36_name_type namesWorld 0 "a" "T" "b" ["a"] [] .compound (by decide) (by decide) (by decide)

example : (∀ a b, b ∈ namesWorld.g a → (fun p => if p = "a" then 2 else if p = "b" then 1 else 0) b <
      (fun p => if p = "a" then 2 else if p = "b" then 1 else 0 : String → Nat) a) ∧
    getSymbol namesWorld 3 "a" "red" = some (.ok (.member, "c")) ∧
    getSymbol namesWorld 3 "a" "blue" = some (.error ()) := by
  refine ⟨?_, by decide +kernel, by decide +kernel⟩
  intro a b h
  simp only [namesWorld] at h
  split at h
  · rename_i ha; subst ha; rw [List.mem_singleton] at h; subst h; decide
  · split at h
    · rename_i ha; subst ha; rw [List.mem_singleton] at h; subst h; decide
    · cases h

end Verif
