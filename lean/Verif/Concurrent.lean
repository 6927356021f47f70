/-!
# Bit field traits obtained by several goroutines

Source: /repo/ztype/array_traits.go:105-129.  Both tables are filled by calls of `GetBitFieldArrayTraits` and `GetSignedBitFieldArrayTraits`, without locks.
`Verif/Array` has one call after another (C42); here the calls of several goroutines take turns at any point.

An entry of a table is an interface value of two machine words, one for the type and one for the pointer.  The memory model of Go lets accesses to values
of several words behave like accesses to the words one by one, in any order (https://go.dev/ref/mem, "Implementation Restrictions for Programs Containing
Data Races").  `split` says whether they do.  Reordering of accesses beyond that is not modelled.
-/

namespace Verif

/-- Traits for bit fields: the Go type and the number of bits. -/
abbrev TraitsPtr := Nat × Nat

/-- An entry of a table: the word of the type, the word of the pointer. -/
structure Entry where
  type : Option Nat
  ptr : Option TraitsPtr

/-- A table, /repo/ztype/array_traits.go:106-107; entries from 64 on are not there. -/
abbrev TraitsTable := Nat → Entry

/-- How a call ends: with a pointer, which may be nil, or with a panic. -/
inductive CallEnd where
  | returned (p : Option TraitsPtr)
  | panicked
deriving DecidableEq

/-- Where a call is. -/
inductive CallState where
  /-- before line 111 or 121 -/
  | begin
  /-- one word of the entry is read -/
  | readType (type : Option Nat)
  | readPtr (ptr : Option TraitsPtr)
  /-- behind line 111 or 121 -/
  | read (type : Option Nat) (ptr : Option TraitsPtr)
  /-- behind line 113 or 123 -/
  | made
  /-- one word of the entry is written -/
  | wroteType
  | wrotePtr
  /-- behind line 117 or 127 -/
  | over (e : CallEnd)

/-- A call: its type argument, its number of bits, where it is. -/
structure Call where
  type : Nat
  bits : Nat
  state : CallState

/-- `tab[i] = e` -/
def TraitsTable.set (tab : TraitsTable) (i : Nat) (e : Entry) : TraitsTable := fun j => if j = i then e else tab j

/-- The steps of one call, /repo/ztype/array_traits.go:110-118 and 120-128. -/
inductive CallStep (split : Bool) (type bits : Nat) : CallState → TraitsTable → CallState → TraitsTable → Prop
  /-- line 111, 121: the index is out of range -/
  | range {tab : TraitsTable} : 64 ≤ bits → CallStep split type bits .begin tab (.over .panicked) tab
  | read {tab : TraitsTable} : bits < 64 → CallStep split type bits .begin tab (.read (tab bits).type (tab bits).ptr) tab
  | typeFirst {tab : TraitsTable} : split = true → bits < 64 → CallStep split type bits .begin tab (.readType (tab bits).type) tab
  | thenPtr {t : Option Nat} {tab : TraitsTable} : CallStep split type bits (.readType t) tab (.read t (tab bits).ptr) tab
  | ptrFirst {tab : TraitsTable} : split = true → bits < 64 → CallStep split type bits .begin tab (.readPtr (tab bits).ptr) tab
  | thenType {p : Option TraitsPtr} {tab : TraitsTable} : CallStep split type bits (.readPtr p) tab (.read (tab bits).type p) tab
  /-- lines 112-113, 122-123: an interface value is nil if it has no type -/
  | make {p : Option TraitsPtr} {tab : TraitsTable} : CallStep split type bits (.read none p) tab .made tab
  /-- line 114, 124, and the type assertion of the own traits in line 117, 127 -/
  | write {tab : TraitsTable} : CallStep split type bits .made tab (.over (.returned (some (type, bits)))) (tab.set bits ⟨some type, some (type, bits)⟩)
  | writeType {tab : TraitsTable} : split = true → CallStep split type bits .made tab .wroteType (tab.set bits ⟨some type, (tab bits).ptr⟩)
  | finishPtr {tab : TraitsTable} : CallStep split type bits .wroteType tab (.over (.returned (some (type, bits))))
      (tab.set bits ⟨(tab bits).type, some (type, bits)⟩)
  | writePtr {tab : TraitsTable} : split = true → CallStep split type bits .made tab .wrotePtr (tab.set bits ⟨(tab bits).type, some (type, bits)⟩)
  | finishType {tab : TraitsTable} : CallStep split type bits .wrotePtr tab (.over (.returned (some (type, bits))))
      (tab.set bits ⟨some type, (tab bits).ptr⟩)
  /-- line 117, 127: the type assertion -/
  | found {p : Option TraitsPtr} {tab : TraitsTable} : CallStep split type bits (.read (some type) p) tab (.over (.returned p)) tab
  | mismatch {t : Nat} {p : Option TraitsPtr} {tab : TraitsTable} : t ≠ type → CallStep split type bits (.read (some t) p) tab (.over .panicked) tab

/-- A program with several goroutines that call one of the functions, /repo/ztype/array_traits.go:110-128; goroutines that make several calls are several
entries. -/
structure Calling where
  calls : List Call
  table : TraitsTable

/-- One goroutine makes a step, /repo/ztype/array_traits.go:110-128. -/
inductive Calling.Step (split : Bool) : Calling → Calling → Prop
  | mk {calls : List Call} {tab tab' : TraitsTable} {i : Nat} {c : Call} {s : CallState} : calls[i]? = some c →
      CallStep split c.type c.bits c.state tab s tab' → Calling.Step split ⟨calls, tab⟩ ⟨calls.set i { c with state := s }, tab'⟩

/-- Any number of steps. -/
inductive Calling.Runs (split : Bool) : Calling → Calling → Prop
  | refl (s : Calling) : Calling.Runs split s s
  | step {s t u : Calling} : Calling.Runs split s t → Calling.Step split t u → Calling.Runs split s u

/-- Before all calls, /repo/ztype/array_traits.go:105-108: the tables are empty. -/
def Calling.initial (calls : List (Nat × Nat)) : Calling := ⟨calls.map fun c => ⟨c.1, c.2, .begin⟩, fun _ => ⟨none, none⟩⟩

end Verif
