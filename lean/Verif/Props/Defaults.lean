import Verif.Defaults
import Verif.FrontEnd
import Verif.Props.Enum

/-!
# Default values (C83) and enums in databases (C84)
-/

namespace Verif

/-! ## Specification -/

/-- A field that is always there and holds one value. -/
def DefField.Single {α : Type} (f : DefField α) : Prop := f.optional = false ∧ f.array = false

/-- The field with a number in the Go struct of a declaration: fields of structs and unions are counted from 0, for choices the cases that have a field
are counted, and the default case comes last. -/
inductive NthField {α : Type} : DefDecl α → Nat → DefField α → Prop
  | ofStruct {fs : List (DefField α)} {i : Nat} {f : DefField α} : fs[i]? = some f → NthField (.struct fs) i f
  | ofUnion {fs : List (DefField α)} {i : Nat} {f : DefField α} : fs[i]? = some f → NthField (.union fs) i f
  | ofCase {before after : List (Option (DefField α))} {d : Option (Option (DefField α))} {f : DefField α} :
      NthField (.choice (before ++ some f :: after) d) (before.countP Option.isSome) f
  | ofDefault {cases : List (Option (DefField α))} {f : DefField α} : NthField (.choice cases (some (some f))) (cases.countP Option.isSome) f

theorem length_filterMap_id {β : Type} (l : List (Option β)) : (l.filterMap id).length = l.countP Option.isSome := by
  induction l with
  | nil => rfl
  | cons x l ih =>
    cases x with
    | none => rw [List.filterMap_cons_none (by rfl), ih, List.countP_cons_of_neg (by simp)]
    | some y => rw [List.filterMap_cons_some (f := id) (b := y) rfl, List.length_cons, ih, List.countP_cons_of_pos (by simp)]

theorem NthField.fields {α : Type} {d : DefDecl α} {i : Nat} {f : DefField α} (h : NthField d i f) : d.fields[i]? = some f := by
  cases h with
  | ofStruct h => exact h
  | ofUnion h => exact h
  | ofCase => simp [DefDecl.fields, ← length_filterMap_id]
  | ofDefault => simp [DefDecl.fields, ← length_filterMap_id]

/-- The field that a path of field numbers leads to, from a declaration: through fields that always hold one object. -/
inductive FieldAt {α : Type} (schema : Nat → DefDecl α) : Nat → List Nat → DefField α → Prop
  | here {name i : Nat} {f : DefField α} : NthField (schema name) i f → FieldAt schema name [i] f
  | inside {name i m : Nat} {p : List Nat} {f g : DefField α} : NthField (schema name) i f → f.Single →
      f.type = .compound m → FieldAt schema m p g → FieldAt schema name (i :: p) g

/-- The value that a path of field numbers leads to. -/
def GoVal.at {α : Type} : List Nat → GoVal α → Option (GoVal α)
  | [], v => some v
  | i :: p, .object _ vs => vs[i]?.bind (GoVal.at p)
  | _ :: _, _ => none

/-- What stands before the fields of the object that a path leads to: the tag of a union, the parameters. -/
def GoVal.headAt {α : Type} (p : List Nat) (v : GoVal α) : Option (List α) :=
  match v.at p with
  | some (.object head _) => some head
  | _ => none

/-! ## Proofs -/

mutual
theorem loadDefaults_ok {α : Type} (schema : Nat → DefDecl α) (name : Nat) : ∀ v : GoVal α, ∃ v', loadDefaults schema name v = .ok v'
  | .object head vs => by
    obtain ⟨vs', h⟩ := loadFields_ok schema (schema name).fields vs
    exact ⟨.object head vs', by rw [loadDefaults, h]; rfl⟩
  | .plain v => ⟨_, by rw [loadDefaults]; simp⟩
  | .pointer v => ⟨_, by rw [loadDefaults]; simp⟩
  | .slice vs => ⟨_, by rw [loadDefaults]; simp⟩

theorem loadFields_ok {α : Type} (schema : Nat → DefDecl α) : ∀ (fs : List (DefField α)) (vs : List (GoVal α)),
    ∃ vs', loadFields schema fs vs = .ok vs'
  | [], vs => ⟨vs, by rw [loadFields]; simp⟩
  | f :: fs, [] => ⟨[], by rw [loadFields]; simp⟩
  | f :: fs, v :: vs => by
    have h1 : ∃ v', loadField schema f v = .ok v' := by
      rw [loadField]
      split
      · split
        · exact loadDefaults_ok schema _ v
        · exact ⟨_, rfl⟩
        · split <;> exact ⟨_, rfl⟩
      · exact ⟨_, rfl⟩
    obtain ⟨v', h1⟩ := h1
    obtain ⟨vs', h2⟩ := loadFields_ok schema fs vs
    exact ⟨v' :: vs', by rw [loadFields, h1, h2]; rfl⟩
end

theorem loadFields_get {α : Type} {schema : Nat → DefDecl α} : ∀ {fs : List (DefField α)} {vs vs' : List (GoVal α)},
    loadFields schema fs vs = .ok vs' → vs'.length = vs.length ∧ ∀ {i : Nat} {f : DefField α} {v : GoVal α}, fs[i]? = some f →
      vs[i]? = some v → ∃ v', vs'[i]? = some v' ∧ loadField schema f v = .ok v'
  | [], vs, vs', h => by
    rw [loadFields] at h
    · cases h; simp
    · simp
  | f :: fs, [], vs', h => by
    rw [loadFields] at h
    · cases h; simp
    · simp
  | f :: fs, v :: vs, vs', h => by
    obtain ⟨v1, h1⟩ : ∃ v1, loadField schema f v = .ok v1 := by
      cases hv : loadField schema f v with
      | ok v1 => exact ⟨v1, rfl⟩
      | error e => rw [loadFields, hv] at h; exact nomatch h
    obtain ⟨vs1, h2⟩ := loadFields_ok schema fs vs
    rw [loadFields, h1, h2] at h
    cases h
    obtain ⟨h3, h4⟩ := loadFields_get h2
    refine ⟨by simp [h3], ?_⟩
    intro i g w hf hv
    cases i with
    | zero => cases hf; cases hv; exact ⟨v1, rfl, h1⟩
    | succ i => exact h4 hf hv

theorem loadDefaults_object {α : Type} {schema : Nat → DefDecl α} {name : Nat} {head : List α} {vs : List (GoVal α)} {v' : GoVal α}
    (h : loadDefaults schema name (.object head vs) = .ok v') :
    ∃ vs', v' = .object head vs' ∧ loadFields schema (schema name).fields vs = .ok vs' := by
  obtain ⟨vs', h1⟩ := loadFields_ok schema (schema name).fields vs
  rw [loadDefaults, h1] at h
  cases h
  exact ⟨vs', rfl, h1⟩

/-- What happens to the field at a path is what the statements for this field do. -/
theorem loadDefaults_at {α : Type} {schema : Nat → DefDecl α} {name : Nat} {p : List Nat} {f : DefField α}
    (hf : FieldAt schema name p f) : ∀ {v v' x : GoVal α}, loadDefaults schema name v = .ok v' → v.at p = some x →
      ∃ x', v'.at p = some x' ∧ loadField schema f x = .ok x' := by
  induction hf with
  | here hi =>
    intro v v' x h hx
    cases v with
    | object head vs =>
      obtain ⟨vs', rfl, h2⟩ := loadDefaults_object h
      simp only [GoVal.at] at hx ⊢
      obtain ⟨y, hv, hx⟩ := Option.bind_eq_some_iff.1 hx
      cases hx
      obtain ⟨x', h3, h4⟩ := (loadFields_get h2).2 hi.fields hv
      exact ⟨x', by rw [h3]; rfl, h4⟩
    | plain => exact nomatch hx
    | pointer => exact nomatch hx
    | slice => exact nomatch hx
  | inside hi hs ht _ ih =>
    intro v v' x h hx
    cases v with
    | object head vs =>
      obtain ⟨vs', rfl, h2⟩ := loadDefaults_object h
      simp only [GoVal.at] at hx ⊢
      obtain ⟨y, hv, hx⟩ := Option.bind_eq_some_iff.1 hx
      obtain ⟨y', h3, h4⟩ := (loadFields_get h2).2 hi.fields hv
      rw [loadField, hs.1, hs.2, ht] at h4
      obtain ⟨x', h5, h6⟩ := ih h4 hx
      exact ⟨x', by rw [h3]; exact h5, h6⟩
    | plain => exact nomatch hx
    | pointer => exact nomatch hx
    | slice => exact nomatch hx

/-! ## C83 -/

/-- **C83**: loading the default values does not fail. -/
theorem C83_total {α : Type} (schema : Nat → DefDecl α) (name : Nat) (v : GoVal α) : ∃ v', loadDefaults schema name v = .ok v' :=
  loadDefaults_ok schema name v

/-- **C83**: afterwards every field with an initializer has the value of its initializer, at every depth; `partial` because fields
that are enums or bitmasks do not. -/
theorem C83_initialized_partial {α : Type} {schema : Nat → DefDecl α} {name : Nat} {p : List Nat} {f : DefField α} {a : α}
    (hf : FieldAt schema name p f) (hs : f.Single) (hb : f.type = .builtin) (ha : f.initializer = some a) {v v' x : GoVal α}
    (h : loadDefaults schema name v = .ok v') (hx : v.at p = some x) : v'.at p = some (.plain a) := by
  obtain ⟨x', h1, h2⟩ := loadDefaults_at hf h hx
  rw [loadField, hs.1, hs.2, hb, ha] at h2
  cases h2
  exact h1

/-- **C83**: a field without initializer that holds no object is as before, and so are optional fields and arrays. -/
theorem C83_others {α : Type} {schema : Nat → DefDecl α} {name : Nat} {p : List Nat} {f : DefField α}
    (hf : FieldAt schema name p f) (ho : ¬ f.Single ∨ f.initializer = none ∧ ∀ m, f.type ≠ .compound m) {v v' x : GoVal α}
    (h : loadDefaults schema name v = .ok v') (hx : v.at p = some x) : v'.at p = some x := by
  obtain ⟨x', h1, h2⟩ := loadDefaults_at hf h hx
  rw [loadField] at h2
  split at h2
  · next hsingle =>
    simp only [Bool.and_eq_true, Bool.not_eq_true'] at hsingle
    rcases ho with ho | ⟨ho, hn⟩
    · exact absurd hsingle ho
    · cases ht : f.type with
      | compound m => exact absurd ht (hn m)
      | enumLike => rw [ht] at h2; cases h2; exact h1
      | builtin => rw [ht, ho] at h2; cases h2; exact h1
  · cases h2; exact h1

theorem loadDefaults_head {α : Type} {schema : Nat → DefDecl α} {name : Nat} {v v' : GoVal α}
    (h : loadDefaults schema name v = .ok v') : v'.headAt [] = v.headAt [] := by
  cases v with
  | object head vs => obtain ⟨vs', rfl, -⟩ := loadDefaults_object h; rfl
  | plain => rw [loadDefaults] at h; cases h; rfl; simp
  | pointer => rw [loadDefaults] at h; cases h; rfl; simp
  | slice => rw [loadDefaults] at h; cases h; rfl; simp

/-- **C83**: the tag of a union and the parameters of an object stay, also inside. -/
theorem C83_heads {α : Type} {schema : Nat → DefDecl α} {name : Nat} {v v' : GoVal α} (h : loadDefaults schema name v = .ok v') :
    v'.headAt [] = v.headAt [] ∧ ∀ {p : List Nat} {f : DefField α} {m : Nat}, FieldAt schema name p f → f.type = .compound m →
      v'.headAt p = v.headAt p ∨ v.at p = none := by
  refine ⟨loadDefaults_head h, ?_⟩
  intro p f m hf hm
  cases hx : v.at p with
  | none => exact Or.inr rfl
  | some x =>
    left
    obtain ⟨x', h1, h2⟩ := loadDefaults_at hf h hx
    rw [loadField, hm] at h2
    simp only [GoVal.headAt, h1, hx]
    split at h2
    · exact loadDefaults_head h2
    · cases h2; rfl

mutual
theorem loadDefaults_twice {α : Type} (schema : Nat → DefDecl α) (name : Nat) : ∀ (v v' : GoVal α),
    loadDefaults schema name v = .ok v' → loadDefaults schema name v' = .ok v'
  | .object head vs, v', h => by
    obtain ⟨vs', rfl, h2⟩ := loadDefaults_object h
    rw [loadDefaults, loadFields_twice schema _ vs vs' h2]
    rfl
  | .plain v, v', h => by rw [loadDefaults] at h; cases h; rw [loadDefaults]; all_goals simp
  | .pointer v, v', h => by rw [loadDefaults] at h; cases h; rw [loadDefaults]; all_goals simp
  | .slice vs, v', h => by rw [loadDefaults] at h; cases h; rw [loadDefaults]; all_goals simp

theorem loadFields_twice {α : Type} (schema : Nat → DefDecl α) : ∀ (fs : List (DefField α)) (vs vs' : List (GoVal α)),
    loadFields schema fs vs = .ok vs' → loadFields schema fs vs' = .ok vs'
  | [], vs, vs', h => by rw [loadFields] at h; cases h; rw [loadFields]; all_goals simp
  | f :: fs, [], vs', h => by rw [loadFields] at h; cases h; rw [loadFields]; all_goals simp
  | f :: fs, v :: vs, vs', h => by
    obtain ⟨vs1, h2⟩ := loadFields_ok schema fs vs
    cases hv : loadField schema f v with
    | error e => rw [loadFields, hv] at h; exact nomatch h
    | ok v1 =>
      rw [loadFields, hv, h2] at h
      cases h
      have h1 : loadField schema f v1 = .ok v1 := by
        rw [loadField] at hv ⊢
        split
        · next hc =>
          rw [if_pos hc] at hv
          cases ht : f.type with
          | compound m => rw [ht] at hv; exact loadDefaults_twice schema m v v1 hv
          | enumLike => rfl
          | builtin =>
            rw [ht] at hv
            cases hi : f.initializer with
            | none => rfl
            | some a => rw [hi] at hv; cases hv; rfl
        · rfl
      rw [loadFields, h1, loadFields_twice schema fs vs vs1 h2]
      rfl
end

/-- **C83**: loading the default values once more changes nothing. -/
theorem C83_again {α : Type} {schema : Nat → DefDecl α} {name : Nat} {v v' : GoVal α} (h : loadDefaults schema name v = .ok v') :
    loadDefaults schema name v' = .ok v' := loadDefaults_twice schema name v v' h

/-- `struct Outer { Inner a; uint8 b = 5; Color c = Color.GREEN; };`, `struct Inner { uint8 x = 3; uint8 y; };` -/
def exDefaults : Nat → DefDecl Nat
  | 0 => .struct [⟨false, false, .compound 1, none⟩, ⟨false, false, .builtin, some 5⟩, ⟨false, false, .enumLike, some 1⟩]
  | _ => .struct [⟨false, false, .builtin, some 3⟩, ⟨false, false, .builtin, none⟩]

theorem exDefaults_load : loadDefaults exDefaults 0 (.object [] [.object [] [.plain 0, .plain 9], .plain 0, .plain 0]) =
    .ok (.object [] [.object [] [.plain 3, .plain 9], .plain 5, .plain 0]) := by
  simp [loadDefaults, loadFields, loadField, exDefaults, DefDecl.fields, bind, Except.bind, pure, Except.pure]

example : FieldAt exDefaults 0 [0, 0] ⟨false, false, .builtin, some 3⟩ := .inside (.ofStruct rfl) ⟨rfl, rfl⟩ rfl (.here (.ofStruct rfl))

/-- The default case of a choice whose first case has no field. -/
example : FieldAt (α := Nat) (fun _ => .choice [Option.none, some ⟨false, false, .builtin, some 1⟩] (some (some ⟨false, false, .builtin, some 7⟩))) 0 [1]
    ⟨false, false, .builtin, some 7⟩ := .here (.ofDefault (cases := [Option.none, some _]))

/-- **C83** does not hold of enums: the initializer of the field is not used. -/
theorem C83_violated_enum : FieldAt exDefaults 0 [2] ⟨false, false, .enumLike, some 1⟩ ∧
    ∃ v', loadDefaults exDefaults 0 (.object [] [.object [] [.plain 0, .plain 9], .plain 0, .plain 0]) = .ok v' ∧
      (match v'.at [2] with | some (.plain n) => n = 0 | _ => False) := by
  refine ⟨.here (.ofStruct rfl), .object [] [.object [] [.plain 3, .plain 9], .plain 5, .plain 0], exDefaults_load, ?_⟩
  simp [GoVal.at]

/-! ## C84 -/

/-- What `fmt` prints for a value without a name: `unknown(` and the number and `)`. -/
def unknownName {w : Nat} (number : BitVec w → String) (v : BitVec w) : String := "unknown(" ++ number v ++ ")"

theorem unknown_not_name {w : Nat} (number : BitVec w → String) (v : BitVec w) (name : String) (h : isIdText name.toList = true) :
    unknownName number v ≠ name := by
  rintro rfl
  have hm : '(' ∈ (unknownName number v).toList := by
    simp [unknownName, String.toList_append]
  unfold isIdText at h
  split at h
  · exact nomatch h
  · next c cs heq =>
    rw [heq] at hm
    simp only [Bool.and_eq_true, List.all_eq_true] at h
    rcases List.mem_cons.1 hm with rfl | hm
    · exact absurd h.1 (by decide)
    · exact absurd (h.2 _ hm) (by decide)

/-- **C84**: an item of an enum that is stored in a database is read back as this item, whether the database gives the text as
string or as bytes. -/
theorem C84_roundtrip {w : Nat} (t : EnumTable w) (number : BitVec w → String) (hn : (t.map (·.1)).Nodup) (hv : (t.map (·.2)).Nodup)
    {v : BitVec w} (h : v ∈ t.map (·.2)) (receiver : BitVec w) :
    ∃ s, t.sqlValue (unknownName number) v = .text s ∧ t.scan (.text s) receiver = (v, true) ∧ t.scan (.bytes s) receiver = (v, true) := by
  obtain ⟨⟨name, v'⟩, hm, rfl⟩ := List.mem_map.1 h
  obtain ⟨-, -, h3⟩ := C30_string_roundtrip t (unknownName number) hn hv name v' hm
  exact ⟨_, rfl, by simp [EnumTable.scan, h3], by simp [EnumTable.scan, h3]⟩

/-- **C84**: any other value is stored as a text that is not read back: reading reports an error and keeps the receiver. -/
theorem C84_unknown {w : Nat} (t : EnumTable w) (number : BitVec w → String) (hid : ∀ e ∈ t, isIdText e.1.toList = true)
    {v : BitVec w} (h : v ∉ t.map (·.2)) (receiver : BitVec w) :
    t.scan (t.sqlValue (unknownName number) v) receiver = (receiver, false) := by
  have h1 : t.str (unknownName number) v = unknownName number v := by
    have : t.find? (fun e => e.2 == v) = none := by
      rw [List.find?_eq_none]
      intro e he heq
      exact h (List.mem_map.2 ⟨e, he, by simpa using heq⟩)
    simp [EnumTable.str, this]
  have h2 : t.parse (unknownName number v) = none := by
    rw [C30_string_rejects]
    intro u hu
    exact unknown_not_name number v _ (hid _ hu) rfl
  simp [EnumTable.scan, EnumTable.sqlValue, h1, h2]

/-- **C84**: whatever the database gives, either there is an error and the receiver stays, or the value was NULL and the receiver
stays, or the receiver is the item with the name the database gave. -/
theorem C84_scan {w : Nat} (t : EnumTable w) (src : SqlValue) (receiver : BitVec w) :
    t.scan src receiver = (receiver, false) ∨ src = .null ∧ t.scan src receiver = (receiver, true) ∨
    ∃ s v, (src = .text s ∨ src = .bytes s ∨ src = .stringer s) ∧ (s, v) ∈ t ∧ t.scan src receiver = (v, true) := by
  have hparse : ∀ s v, t.parse s = some v → (s, v) ∈ t := by
    intro s v h
    simp only [EnumTable.parse, Option.map_eq_some_iff] at h
    obtain ⟨⟨n, u⟩, hf, rfl⟩ := h
    have hm := List.mem_of_find?_eq_some hf
    have := List.find?_some hf
    simp only [beq_iff_eq] at this
    subst this
    exact hm
  cases src with
  | null => exact Or.inr (Or.inl ⟨rfl, rfl⟩)
  | other => exact Or.inl rfl
  | bytes s =>
    cases hs : t.parse s with
    | none => exact Or.inl (by simp [EnumTable.scan, hs])
    | some v => exact Or.inr (Or.inr ⟨s, v, by simp, hparse s v hs, by simp [EnumTable.scan, hs]⟩)
  | text s =>
    cases hs : t.parse s with
    | none => exact Or.inl (by simp [EnumTable.scan, hs])
    | some v => exact Or.inr (Or.inr ⟨s, v, by simp, hparse s v hs, by simp [EnumTable.scan, hs]⟩)
  | stringer s =>
    cases hs : t.parse s with
    | none => exact Or.inl (by simp [EnumTable.scan, hs])
    | some v => exact Or.inr (Or.inr ⟨s, v, by simp, hparse s v hs, by simp [EnumTable.scan, hs]⟩)

/-- An enum with two items. -/
def exTable : EnumTable 8 := [("RED", 0#8), ("GREEN", 7#8)]

example : (exTable.map (·.1)).Nodup ∧ (exTable.map (·.2)).Nodup ∧ 7#8 ∈ exTable.map (·.2) ∧ 3#8 ∉ exTable.map (·.2) ∧
    ∀ e ∈ exTable, isIdText e.1.toList = true := by decide

end Verif
