import Verif.GoTypes

/-!
# C89: a subtype can be used in expressions like the type it stands for

`TEx.spelled` replaces the subtypes in an expression by what they stand for; nothing else changes.

* `C89_same_partial`: the expression is accepted or refused, and typed, as the replaced one is, if it has no array elements of a subtype.
* `C89_violated_bool`, `C89_violated_sum`: elements of an array of a subtype are taken for integers of an unknown type, so that an array of a subtype of
  `bool` cannot be used in conditions, and one of an integer subtype cannot be used in sums.
-/

namespace Verif

/-- The type that a subtype stands for. -/
def DTy.spelled : DTy → DTy
  | .sub _ n => .builtin n
  | d => d

/-- The expression with the types in place of subtypes. -/
def TEx.spelled : TEx → TEx
  | .const z n => .const z n
  | .fconst t n => .fconst t n
  | .lit t s => .lit t s
  | .sym p d => .sym p d.spelled
  | .call p d r => .call p d.spelled r
  | .elem p i d => .elem p i.spelled d.spelled
  | .item t ty m z => .item t ty m z
  | .index => .index
  | .lengthof p => .lengthof p
  | .numbits e => .numbits e.spelled
  | .valueof e => .valueof e.spelled
  | .paren e => .paren e.spelled
  | .arith o a b => .arith o a.spelled b.spelled
  | .bit o a b => .bit o a.spelled b.spelled
  | .shift o a b => .shift o a.spelled b.spelled
  | .cmp o a b => .cmp o a.spelled b.spelled
  | .logic o a b => .logic o a.spelled b.spelled
  | .bang e => .bang e.spelled
  | .isset a b => .isset a.spelled b.spelled

/-- There is no element of an array of a subtype. -/
def TEx.noSubElem : TEx → Prop
  | .const _ _ | .fconst _ _ | .lit _ _ | .sym _ _ | .call _ _ _ | .item _ _ _ _ | .index | .lengthof _ => True
  | .elem _ i d => i.noSubElem ∧ d.spelled = d
  | .numbits e | .valueof e | .paren e | .bang e => e.noSubElem
  | .arith _ a b | .bit _ a b | .shift _ a b | .cmp _ a b | .logic _ a b | .isset a b => a.noSubElem ∧ b.noSubElem

theorem operand_spelled (d : DTy) : d.spelled.operand = d.operand := by cases d <;> rfl

/-- **C89** (partial): what is missing are elements of arrays of subtypes, for which it is wrong (see below). -/
theorem C89_same_partial (e : TEx) (h : e.noSubElem) : e.spelled.res = e.res := by
  induction e with
  | const | fconst | lit | item | index | lengthof => rfl
  | sym p d => simp only [TEx.spelled, TEx.res, operand_spelled]
  | call p d r => rfl
  | elem p i d ih => simp only [TEx.spelled, TEx.res, ih h.1, h.2]
  | numbits e ih => simp only [TEx.spelled, TEx.res, ih h]
  | valueof e ih => simp only [TEx.spelled, TEx.res, ih h]
  | paren e ih => simp only [TEx.spelled, TEx.res, ih h]
  | bang e ih => simp only [TEx.spelled, TEx.res, ih h]
  | arith o a b iha ihb => simp only [TEx.spelled, TEx.res, iha h.1, ihb h.2]
  | bit o a b iha ihb => simp only [TEx.spelled, TEx.res, iha h.1, ihb h.2]
  | shift o a b iha ihb => simp only [TEx.spelled, TEx.res, iha h.1, ihb h.2]
  | cmp o a b iha ihb => simp only [TEx.spelled, TEx.res, iha h.1, ihb h.2]
  | logic o a b iha ihb => simp only [TEx.spelled, TEx.res, iha h.1, ihb h.2]
  | isset a b iha ihb => simp only [TEx.spelled, TEx.res, iha h.1, ihb h.2]

/-- **C89, violated.** `!a[0]` is refused if `a` is an array of a subtype of `bool`, whatever the name of the subtype; it is accepted if `a` is an array of
`bool`. -/
theorem C89_violated_bool (p : PEx) (name : Text) (hn : name ≠ "bool".toList) (z : Int) :
    let e : TEx := .bang (.elem p (.const z none) (.sub name ⟨"bool", 0, false⟩))
    (∃ msg, e.res = .error msg) ∧ e.spelled.res = .ok ⟨.bool, none⟩ := by
  refine ⟨⟨"boolean operand expected", ?_⟩, rfl⟩
  have hk : kindByName (String.ofList name) ≠ .bool := by
    have hne : String.ofList name ≠ "bool" := by
      intro h; apply hn; rw [← h]; simp
    unfold kindByName
    rw [if_neg hne]
    split
    · simp
    · split <;> simp
  simp only [TEx.res, bind, Except.bind, ne_eq, not_true_eq_false, if_false, DTy.elemOperand, hk, not_false_eq_true, if_true]

/-- **C89, violated.** `a[0] + x` is refused if `a` is an array of a subtype of `uint8` and `x` a `uint8`; it is accepted if `a` is an array of `uint8`. -/
theorem C89_violated_sum (p q : PEx) (z : Int) :
    let e : TEx := .arith .add (.elem p (.const z none) (.sub "Level".toList ⟨"uint8", 0, false⟩)) (.sym q (.builtin ⟨"uint8", 0, false⟩))
    (∃ msg, e.res = .error msg) ∧ e.spelled.res = .ok ⟨.integer, some ⟨"uint8", 0, false⟩⟩ := by
  intro e
  refine ⟨?_, ?_⟩
  · have : ∃ msg, arithOperand .add ⟨.integer, some ⟨"Level", 0, false⟩⟩ ⟨.integer, some ⟨"uint8", 0, false⟩⟩ = .error msg := ⟨_, rfl⟩
    obtain ⟨msg, hm⟩ := this
    exact ⟨msg, hm⟩
  · rfl

/-- A sum and a comparison of a field of a subtype, in a condition with an element of an array of `bool`. -/
example (p q r : PEx) :
    let e : TEx := .logic .land (.cmp .lt (.arith .add (.sym p (.sub "Level".toList ⟨"uint8", 0, false⟩)) (.const 1 none)) (.sym q (.builtin ⟨"uint16", 0, false⟩)))
      (.elem r .index (.builtin ⟨"bool", 0, false⟩))
    e.noSubElem ∧ e.spelled ≠ e ∧ e.res = .ok ⟨.bool, none⟩ := by
  refine ⟨by simp [TEx.noSubElem, DTy.spelled], by simp [TEx.spelled, DTy.spelled], rfl⟩

end Verif
