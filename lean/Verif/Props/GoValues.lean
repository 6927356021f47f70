import Verif.Props.GoTypes

/-!
# C67: generated expressions compute what the schema says
-/

namespace Verif

/-! ## Specification: the values of Go expressions -/

/-- Values of expressions: integers (also those of enums and bitmasks) and truth values. Floating point numbers and strings are
left out. -/
inductive GVal where
  | int (z : Int)
  | bool (b : Bool)
deriving DecidableEq

def GVal.toInt : GVal → Option Int
  | .int z => some z
  | .bool _ => none

/-- A state of the program: the values of names, fields and calls, the elements of arrays (`none` if the index is out of range)
and their lengths, and the function ztype.NumBits. -/
structure GoState where
  prim : GEx → Option GVal
  elem : GEx → Int → Option Int
  len : GEx → Int
  numBits : Int → Int

/-- Conversion to an integer type, and the result of an operation that leaves its type, in two's complement
(https://go.dev/ref/spec#Integer_overflow). -/
def wrapTo (n : GoNum) (z : Int) : Int :=
  if n.signed then (z + 2 ^ (n.width - 1)) % (2 * 2 ^ (n.width - 1)) - 2 ^ (n.width - 1) else z % 2 ^ n.width

def intCmp (o : GOp) (x y : Int) : Option Bool :=
  match o with
  | .lt => some (decide (x < y))
  | .le => some (decide (x ≤ y))
  | .gt => some (decide (x > y))
  | .ge => some (decide (x ≥ y))
  | .eq => some (decide (x = y))
  | .ne => some (decide (x ≠ y))
  | _ => none

def valCmp (o : GOp) : GVal → GVal → Option GVal
  | .int x, .int y => (intCmp o x y).map .bool
  | .bool x, .bool y => if o = .eq then some (.bool (x == y)) else if o = .ne then some (.bool (x != y)) else none
  | _, _ => none

/-- `&&` and `||`; the second operand is evaluated only if it is needed. -/
def valLogic (o : GOp) (x : GVal) (y : Option GVal) : Option GVal :=
  match o, x with
  | .land, .bool false => some (.bool false)
  | .lor, .bool true => some (.bool true)
  | _, .bool _ => match y with
    | some (.bool b) => some (.bool b)
    | _ => none
  | _, _ => none

/-- The value of a Go expression; `none` if evaluation panics. Operations are carried out in the type of the expression. -/
def goEval (env : GoEnv) (st : GoState) : GEx → Option GVal
  | .name t => st.prim (.name t)
  | .num n => some (.int n)
  | .paren g => goEval env st g
  | .call0 f => st.prim (.call0 f)
  | .call (.name t) a =>
    if t = lenName then some (.int (st.len a))
    else (env.tyName t).bind fun t => (t.int env).bind fun n => ((goEval env st a).bind GVal.toInt).map fun z => .int (wrapTo n z)
  | .call (.sel _ _) a => ((goEval env st a).bind GVal.toInt).map fun z => .int (st.numBits z)
  | .call _ _ => none
  | .index a b => ((goEval env st b).bind GVal.toInt).bind fun i => (st.elem a i).map .int
  | .sel g t => st.prim (.sel g t)
  | .un .minus g => ((goEval env st g).bind GVal.toInt).map fun z => .int (-z)
  | .un .bang g => (goEval env st g).bind fun v => match v with
    | .bool b => some (.bool !b)
    | _ => none
  | .un _ _ => none
  | .bin o a b => (goEval env st a).bind fun x =>
    if o.isLogic then valLogic o x (goEval env st b)
    else (goEval env st b).bind fun y =>
      if o.isCmp then valCmp o x y
      else match goCheck env (.bin o a b) with
        | some (.typed t _) => (t.int env).bind fun n => x.toInt.bind fun x => y.toInt.bind fun y =>
          (intOp o x y).map fun z => .int (wrapTo n z)
        | _ => none
  | .cond _ _ _ => none

/-! ## Specification: the values of expressions of a schema -/

/-- The value of an expression with integers of any size. A path to a field has the value Go finds there. `isset` tells whether
all the bits of the value are set in the mask (language overview of zserio: `isset(mask, value)` stands for
`(mask & value) == value`). -/
def TEx.val (env : GoEnv) (st : GoState) : TEx → Option GVal
  | .const z _ => some (.int z)
  | .fconst _ _ => none
  | .lit t _ => st.prim (.name t)
  | .sym p _ => goEval env st (meant p)
  | .call p _ _ => st.prim (.call0 (meant p))
  | .elem p i _ => ((i.val env st).bind GVal.toInt).bind fun i => (st.elem (meant p) i).map .int
  | .item _ _ _ z => some (.int z)
  | .index => st.prim (.name "index".toList)
  | .lengthof p => some (.int (st.len (meant p)))
  | .numbits e => ((e.val env st).bind GVal.toInt).map fun z => .int (st.numBits z)
  | .valueof e | .paren e => e.val env st
  | .arith o a b | .bit o a b | .shift o a b =>
    ((a.val env st).bind GVal.toInt).bind fun x => ((b.val env st).bind GVal.toInt).bind fun y => (intOp o x y).map .int
  | .cmp o a b => (a.val env st).bind fun x => (b.val env st).bind fun y => valCmp o x y
  | .logic o a b => (a.val env st).bind fun x => valLogic o x (b.val env st)
  | .bang e => (e.val env st).bind fun v => match v with
    | .bool b => some (.bool !b)
    | _ => none
  | .isset a b => ((a.val env st).bind GVal.toInt).bind fun x => ((b.val env st).bind GVal.toInt).bind fun y =>
    some (.bool (decide (x.land y = y)))

/-- Operands and result of an integer operation are in the range of the type `n`. -/
def OpFits (n : GoNum) (o : GOp) (x y : Option GVal) : Prop :=
  ∀ a b, x = some (.int a) → y = some (.int b) → n.Holds a ∧ n.Holds b ∧ ∀ c, intOp o a b = some c → n.Holds c

/-- Every operation stays in the range of the Go type of its result, enum and bitmask values are those of the schema, and `isset`
is asked for a single bit. -/
def TEx.InRange (env : GoEnv) (st : GoState) : TEx → Prop
  | .const _ _ | .fconst _ _ | .lit _ _ | .sym _ _ | .call _ _ _ | .index => True
  | .item t _ _ z => st.prim (.name t) = some (.int z)
  | .elem _ i _ => i.InRange env st
  | .lengthof p => GoNum.Holds ⟨true, 64⟩ (st.len (meant p))
  | .numbits e => e.InRange env st ∧ ∀ z, e.val env st = some (.int z) → GoNum.Holds ⟨false, 64⟩ z
  | .valueof e | .paren e | .bang e => e.InRange env st
  | .arith o a b => a.InRange env st ∧ b.InRange env st ∧
      ∀ g, (TEx.arith o a b).goTy env = some g → ∃ n, g.int env = some n ∧ OpFits n o (a.val env st) (b.val env st)
  | .bit o a b => a.InRange env st ∧ b.InRange env st ∧
      ∀ g, (TEx.bit o a b).goTy env = some g → ∃ n, g.int env = some n ∧ OpFits n o (a.val env st) (b.val env st)
  | .isset a b => a.InRange env st ∧ b.InRange env st ∧
      ∀ g, (TEx.bit .band a b).goTy env = some g → ∃ n, g.int env = some n ∧ OpFits n .band (a.val env st) (b.val env st) ∧
        ∀ y, b.val env st = some (.int y) → ∃ k : Nat, y = 2 ^ k
  | .shift o a b => a.InRange env st ∧ b.InRange env st ∧ ∀ g, (TEx.shift o a b).goTy env = some g → ∃ n, g.int env = some n ∧
      ∀ x y, a.val env st = some (.int x) → b.val env st = some (.int y) → n.Holds x ∧ ∀ z, intOp o x y = some z → n.Holds z
  | .cmp _ a b | .logic _ a b => a.InRange env st ∧ b.InRange env st

/-! ## Proofs -/

theorem land_single (x : Int) (k : Nat) : x.land (2 ^ k) = 2 ^ k ↔ x.land (2 ^ k) ≠ 0 := by
  have e : ((2 : Int) ^ k) = Int.ofNat (2 ^ k) := by simp
  rw [e]
  cases x with
  | ofNat m =>
    show ((m &&& 2 ^ k : Nat) : Int) = ((2 ^ k : Nat) : Int) ↔ ((m &&& 2 ^ k : Nat) : Int) ≠ 0
    rw [Nat.and_two_pow]
    cases m.testBit k <;> simp [(pow_ne_zero k (two_ne_zero' Int)).symm]
  | negSucc m =>
    show ((Nat.ldiff (2 ^ k) m : Nat) : Int) = ((2 ^ k : Nat) : Int) ↔ ((Nat.ldiff (2 ^ k) m : Nat) : Int) ≠ 0
    have : Nat.ldiff (2 ^ k) m = (!m.testBit k).toNat * 2 ^ k := by
      apply Nat.eq_of_testBit_eq
      intro i
      rw [Nat.testBit_ldiff, Nat.testBit_two_pow]
      by_cases h : k = i
      · subst h
        cases m.testBit k <;> simp
      · cases m.testBit k <;> simp [h]
    rw [this]
    cases m.testBit k <;> simp [(pow_ne_zero k (two_ne_zero' Int)).symm]

theorem wrapTo_holds {n : GoNum} {z : Int} (h : n.Holds z) : wrapTo n z = z := by
  unfold GoNum.Holds at h
  unfold wrapTo
  split_ifs at h ⊢
  · rw [Int.emod_eq_of_lt (by omega) (by omega)]; omega
  · exact Int.emod_eq_of_lt h.1 h.2

theorem toInt_some {v : Option GVal} {z : Int} (h : v.bind GVal.toInt = some z) : v = some (.int z) := by
  cases v with
  | none => cases h
  | some v => cases v <;> simp_all [GVal.toInt]

/-- A cast to the type of the result changes nothing. -/
theorem eval_cast {env : GoEnv} {st : GoState} {c : Option Text} {m : GEx} {g : GTy} {n : GoNum} {z : Int}
    (hc : ∀ t, c = some t → t ≠ lenName ∧ env.tyName t = some g) (hn : g.int env = some n) (hm : goEval env st m = some (.int z))
    (hz : n.Holds z) : goEval env st (castGo c m) = some (.int z) := by
  cases c with
  | none => exact hm
  | some t =>
    obtain ⟨h1, h2⟩ := hc t rfl
    simp only [castGo, goEval, if_neg h1, h2, hn, hm, Option.bind_some, GVal.toInt, Option.map_some, wrapTo_holds hz]

/-- The cast of an operand goes to the type of the result. -/
theorem arithCast_type {env : GoEnv} (henv : env.Ok) {o : GOp} {a b x : TEx} {r : Operand} (hr : (TEx.arith o a b).res = .ok r)
    (hok : r.IsOk env) {t : Text} (ht : arithCast o a b x = some t) : t ≠ lenName ∧ env.tyName t = (TEx.arith o a b).goTy env := by
  have hr0 := hr
  simp only [TEx.res] at hr
  obtain ⟨ra, hra, hr⟩ := bind_ok hr
  obtain ⟨rb, hrb, hr⟩ := bind_ok hr
  unfold arithCast at ht
  cases hx : x.res with
  | error m => rw [hra, hrb, hx] at ht; cases ht
  | ok rx =>
    rw [hra, hrb, hx] at ht
    simp only [hr] at ht
    have key : ∀ n, (r = ⟨.integer, some n⟩ ∨ r = ⟨.float, some n⟩) → t = goTypeText n → t ≠ lenName ∧ env.tyName t = (TEx.arith o a b).goTy env := by
      rintro n hk rfl
      have hnum : n.IsNum env r.kind := hok.num (by rcases hk with rfl | rfl <;> simp) (by rcases hk with rfl | rfl <;> rfl)
      obtain ⟨g, hg⟩ := IsNum.type henv hnum
      refine ⟨hg.len, ?_⟩
      rcases hk with rfl | rfl <;> simp only [TEx.goTy, hr0]
    obtain ⟨k, ty⟩ := r
    unfold castOf at ht
    cases ty with
    | none => cases k <;> simp at ht
    | some n =>
      cases k <;> simp only at ht <;> first | cases ht | skip
      · refine key n (.inl rfl) ?_
        cases hs : x.symText with
        | none => rw [hs] at ht; simp only at ht; split_ifs at ht; cases ht; rfl
        | some s => rw [hs] at ht; simp only at ht; split_ifs at ht; cases ht; rfl
      · refine key n (.inr rfl) ?_
        cases hs : x.symText with
        | none => rw [hs] at ht; simp only at ht; split_ifs at ht; cases ht; rfl
        | some s => rw [hs] at ht; simp only at ht; split_ifs at ht; cases ht; rfl

/-- An integer operation that stays in its type. -/
theorem eval_bin {env : GoEnv} {st : GoState} {o : GOp} {a b : GEx} {g : GTy} {c : Option Int} {n : GoNum} {x y z : Int}
    (ho : (o.isArith || o.isBit || o.isShift) = true) (ht : goCheck env (.bin o a b) = some (.typed g c)) (hn : g.int env = some n)
    (ha : goEval env st a = some (.int x)) (hb : goEval env st b = some (.int y)) (hz : intOp o x y = some z) (hh : n.Holds z) :
    goEval env st (.bin o a b) = some (.int z) := by
  have h1 : o.isLogic = false := by cases o <;> simp_all [GOp.isArith, GOp.isBit, GOp.isShift, GOp.isLogic]
  have h2 : o.isCmp = false := by cases o <;> simp_all [GOp.isArith, GOp.isBit, GOp.isShift, GOp.isCmp]
  simp only [goEval, ha, hb, Option.bind_some, h1, h2, Bool.false_eq_true, if_false, ht, hn, GVal.toInt, hz, Option.map_some, wrapTo_holds hh]

theorem op_val {x y : Option GVal} {o : GOp} {v : GVal}
    (h : ((x.bind GVal.toInt).bind fun x => (y.bind GVal.toInt).bind fun y => (intOp o x y).map GVal.int) = some v) :
    ∃ a b c, x = some (.int a) ∧ y = some (.int b) ∧ intOp o a b = some c ∧ v = .int c := by
  obtain ⟨a, ha, h⟩ := Option.bind_eq_some_iff.1 h
  obtain ⟨b, hb, h⟩ := Option.bind_eq_some_iff.1 h
  obtain ⟨c, hc, h⟩ := Option.map_eq_some_iff.1 h
  exact ⟨a, b, c, toInt_some ha, toInt_some hb, hc, h.symm⟩

theorem eval_sound {env : GoEnv} (henv : env.Ok) {st : GoState} (e : TEx) : ∀ r v, e.Declared env → e.res = .ok r → e.Sound env →
    e.InRange env st → e.val env st = some v → goEval env st (meant e.toPEx) = some v := by
  induction e with
  | const z n =>
    intro r v _ _ _ _ hv
    cases hv
    simp only [TEx.toPEx, meant]
    split_ifs with hz
    · simp only [goEval, Option.bind_some, GVal.toInt, Option.map_some, Option.some.injEq, GVal.int.injEq]; omega
    · simp only [goEval, Option.some.injEq, GVal.int.injEq]; omega
  | fconst t n => intro r v _ _ _ _ hv; cases hv
  | lit t s => intro r v _ _ _ _ hv; exact hv
  | sym p d => intro r v _ _ _ _ hv; exact hv
  | call p d r' => intro r v _ _ _ _ hv; exact hv
  | elem p i d ih =>
    intro r v hd hr hs hin hv
    simp only [TEx.res] at hr
    obtain ⟨ri, hri, hr⟩ := bind_ok hr
    simp only [TEx.val] at hv
    obtain ⟨z, hz, hv⟩ := Option.bind_eq_some_iff.1 hv
    have := ih ri (.int z) hd.1 hri hs.1 hin (toInt_some hz)
    simp only [TEx.toPEx, meant, goEval, this, Option.bind_some, GVal.toInt, hv]
  | item t ty m z => intro r v _ _ _ hin hv; cases hv; exact hin
  | index => intro r v _ _ _ _ hv; exact hv
  | lengthof p =>
    intro r v hd _ _ hin hv
    cases hv
    have h1 : int64Name ≠ lenName := by decide
    have h2 : env.tyName int64Name = some (.num ⟨true, 64⟩) := int64_type henv
    simp only [TEx.toPEx, meant, goEval, if_neg h1, if_true, h2, Option.bind_some, GTy.int, GVal.toInt, Option.map_some, wrapTo_holds hin]
  | numbits e ih =>
    intro r v hd hr hs hin hv
    simp only [TEx.res] at hr
    obtain ⟨re, hre, hr⟩ := bind_ok hr
    simp only [TEx.val] at hv
    obtain ⟨z, hz, hv⟩ := Option.map_eq_some_iff.1 hv
    have hz := toInt_some hz
    have he := ih re (.int z) hd hre hs.1 hin.1 hz
    have h1 : uint64Name ≠ lenName := by decide
    have h2 : env.tyName uint64Name = some (.num ⟨false, 64⟩) := uint64_type henv
    simp only [TEx.toPEx, meant, goEval, if_neg h1, h2, he, Option.bind_some, GTy.int, GVal.toInt, Option.map_some,
      wrapTo_holds (hin.2 z hz), hv]
  | valueof e ih =>
    intro r v hd hr hs hin hv
    simp only [TEx.res] at hr
    obtain ⟨re, hre, hr⟩ := bind_ok hr
    exact ih re v hd hre hs.1 hin hv
  | paren e ih => intro r v hd hr hs hin hv; exact ih r v hd hr hs.1 hin hv
  | bang e ih =>
    intro r v hd hr hs hin hv
    simp only [TEx.res] at hr
    obtain ⟨re, hre, hr⟩ := bind_ok hr
    simp only [TEx.val] at hv
    obtain ⟨w, hw, hv⟩ := Option.bind_eq_some_iff.1 hv
    simp only [TEx.toPEx, meant, goEval, ih re w hd hre hs.1 hin hw, Option.bind_some, hv]
  | arith o a b iha ihb =>
    intro r v hd hr hs hin hv
    have hr0 := hr
    have ht := sound_typed henv _ r hd hr hs
    obtain ⟨g, hg, _, hgc⟩ := ht.typed rfl
    simp only [TEx.res] at hr
    obtain ⟨ra, hra, hr⟩ := bind_ok hr
    obtain ⟨rb, hrb, hr⟩ := bind_ok hr
    obtain ⟨x, y, z, hx, hy, hz, rfl⟩ := op_val hv
    obtain ⟨n, hn, hf⟩ := hin.2.2 g hg
    obtain ⟨h1, h2, h3⟩ := hf x y hx hy
    refine eval_bin (by simp [hd.1]) hgc hn (eval_cast (fun t h => ?_) hn (iha ra _ hd.2.1 hra hs.1 hin.1 hx) h1)
      (eval_cast (fun t h => ?_) hn (ihb rb _ hd.2.2 hrb hs.2.1 hin.2.1 hy) h2) hz (h3 z hz)
    · rw [← hg]; exact arithCast_type henv hr0 ht.ok h
    · rw [← hg]; exact arithCast_type henv hr0 ht.ok h
  | bit o a b iha ihb =>
    intro r v hd hr hs hin hv
    have ht := sound_typed henv _ r hd hr hs
    obtain ⟨g, hg, _, hgc⟩ := ht.typed rfl
    simp only [TEx.res] at hr
    obtain ⟨ra, hra, hr⟩ := bind_ok hr
    obtain ⟨rb, hrb, hr⟩ := bind_ok hr
    obtain ⟨x, y, z, hx, hy, hz, rfl⟩ := op_val hv
    obtain ⟨n, hn, hf⟩ := hin.2.2 g hg
    obtain ⟨h1, h2, h3⟩ := hf x y hx hy
    exact eval_bin (by simp [hd.1]) hgc hn (iha ra _ hd.2.1 hra hs.1 hin.1 hx) (ihb rb _ hd.2.2 hrb hs.2.1 hin.2.1 hy) hz (h3 z hz)
  | shift o a b iha ihb =>
    intro r v hd hr hs hin hv
    have ht := sound_typed henv _ r hd hr hs
    obtain ⟨g, hg, _, hgc⟩ := ht.typed rfl
    simp only [TEx.res] at hr
    obtain ⟨ra, hra, hr⟩ := bind_ok hr
    obtain ⟨rb, hrb, hr⟩ := bind_ok hr
    obtain ⟨x, y, z, hx, hy, hz, rfl⟩ := op_val hv
    obtain ⟨n, hn, hf⟩ := hin.2.2 g hg
    obtain ⟨h1, h2⟩ := hf x y hx hy
    refine eval_bin (by simp [hd.1]) hgc hn (eval_cast (fun t h => ?_) hn (iha ra _ hd.2.1 hra hs.1 hin.1 hx) h1)
      (ihb rb _ hd.2.2 hrb hs.2.1 hin.2.1 hy) hz (h2 z hz)
    cases a <;> simp only [shiftCast, reduceCtorEq, Option.some.injEq] at h
    rename_i z' n'
    subst h
    have hnum : (n'.getD ⟨"uint32", 0, false⟩).IsNum env .integer := by
      cases n' with
      | none => exact int_isNum env "uint32" (by decide +kernel)
      | some t => exact hd.2.1 t rfl
    obtain ⟨g', hg'⟩ := IsNum.type henv hnum
    exact ⟨hg'.len, hg⟩
  | cmp o a b iha ihb =>
    intro r v hd hr hs hin hv
    simp only [TEx.res] at hr
    obtain ⟨ra, hra, hr⟩ := bind_ok hr
    obtain ⟨rb, hrb, hr⟩ := bind_ok hr
    simp only [TEx.val] at hv
    obtain ⟨x, hx, hv⟩ := Option.bind_eq_some_iff.1 hv
    obtain ⟨y, hy, hv⟩ := Option.bind_eq_some_iff.1 hv
    have ho := hd.1
    have h1 : o.isLogic = false := by cases o <;> simp_all [GOp.isLogic, GOp.isCmp]
    simp only [TEx.toPEx, meant, castGo, goEval, iha ra x hd.2.1 hra hs.1 hin.1 hx, ihb rb y hd.2.2 hrb hs.2.1 hin.2 hy, Option.bind_some,
      h1, Bool.false_eq_true, if_false, ho, if_true, hv]
  | logic o a b iha ihb =>
    intro r v hd hr hs hin hv
    simp only [TEx.res] at hr
    obtain ⟨ra, hra, hr⟩ := bind_ok hr
    obtain ⟨rb, hrb, hr⟩ := bind_ok hr
    simp only [TEx.val] at hv
    obtain ⟨x, hx, hv⟩ := Option.bind_eq_some_iff.1 hv
    have ho := hd.1
    simp only [TEx.toPEx, meant, castGo, goEval, iha ra x hd.2.1 hra hs.1 hin.1 hx, Option.bind_some, ho, if_true]
    cases hy : b.val env st with
    | some y => rw [ihb rb y hd.2.2 hrb hs.2 hin.2 hy, ← hy]; exact hv
    | none =>
      rw [hy] at hv
      cases o <;> cases x with
      | int z => simp [valLogic] at hv
      | bool c => cases c <;> simp_all [valLogic]
  | isset a b iha ihb =>
    intro r v hd hr hs hin hv
    have hr0 := hr
    simp only [TEx.res] at hr
    obtain ⟨ra, hra, hr⟩ := bind_ok hr
    obtain ⟨rb, hrb, hr⟩ := bind_ok hr
    split_ifs at hr with hk
    push Not at hk
    have hbr : (TEx.bit .band a b).res = .ok ⟨ra.kind, if ra.type = none then rb.type else ra.type⟩ := by
      simp only [TEx.res, hra, hrb]
      show bitOperand ra rb = _
      simp [bitOperand, hk.1, hk.2]
    have ht := sound_typed henv (TEx.bit .band a b) _ ⟨rfl, hd.1, hd.2⟩ hbr hs
    obtain ⟨g, hg, _, hgc⟩ := ht.typed rfl
    simp only [TEx.val] at hv
    obtain ⟨x, hx, hv⟩ := Option.bind_eq_some_iff.1 hv
    obtain ⟨y, hy, hv⟩ := Option.bind_eq_some_iff.1 hv
    cases hv
    obtain ⟨n, hn, hf, hb⟩ := hin.2.2 g hg
    obtain ⟨h1, h2, h3⟩ := hf x y (toInt_some hx) (toInt_some hy)
    have := eval_bin (st := st) rfl hgc hn (iha ra _ hd.1 hra hs.1 hin.1 (toInt_some hx)) (ihb rb _ hd.2 hrb hs.2.1 hin.2.1 (toInt_some hy)) rfl (h3 _ rfl)
    simp only [castGo] at this
    simp only [TEx.toPEx, meant]
    rw [goEval, this]
    simp only [goEval, Option.bind_some, GOp.isLogic, GOp.isCmp, Bool.false_eq_true, if_false, if_true, valCmp, intCmp]
    obtain ⟨k, rfl⟩ := hb y (toInt_some hy)
    simp [land_single]

/-! ## C67 -/

/-- **C67 (part).** Where every operation stays in the range of the Go type of its result, the Go text of an expression has the
value of the expression. -/
theorem C67_value_partial (env : GoEnv) (henv : env.Ok) (st : GoState) (e : TEx) (r : Operand) (v : GVal) (hd : e.Declared env)
    (hr : e.res = .ok r) (hs : e.Sound env) (hp : e.toPEx.Safe) (hin : e.InRange env st) (hv : e.val env st = some v) :
    ∃ ts, printGo e.toPEx = some ts ∧ (∃ g, Derives 1 ts g) ∧ ∀ p g, Derives p ts g → goEval env st g.strip = some v := by
  obtain ⟨ts, h1, h2, h3⟩ := C55_read_partial e.toPEx hp
  exact ⟨ts, h1, h2, fun p g hg => by rw [h3 p g hg]; exact eval_sound henv e r v hd hr hs hin hv⟩

/-- The types of the operands of an arithmetic expression. -/
def TEx.operands : TEx → List NType
  | .sym _ (.builtin n) | .sym _ (.sub _ n) => [n]
  | .paren e => e.operands
  | .arith _ a b => a.operands ++ b.operands
  | _ => []

/-- An integer with the bits of the widest operand, signed if all are. -/
def widest (l : List NType) : GoNum := ⟨l.all (·.isSigned), (l.map (·.valueBits)).foldr max 0⟩

/-- Operands and result of every operation fit the widest of the types of its fields. -/
def TEx.Small (env : GoEnv) (st : GoState) : TEx → Prop
  | .paren e => e.Small env st
  | .arith o a b => a.Small env st ∧ b.Small env st ∧ OpFits (widest (a.operands ++ b.operands)) o (a.val env st) (b.val env st)
  | _ => True

theorem Arith.operands {e : TEx} {l : List NType} (h : e.Arith l) : e.operands = l := by
  induction h with
  | sym hn => rcases hn.1 with rfl | ⟨name, rfl⟩ <;> rfl
  | paren _ ih => exact ih
  | arith _ _ iha ihb => simp only [TEx.operands, iha, ihb]

theorem Holds.mono {s : Bool} {w w' : Nat} (hw : w ≤ w') {z : Int} (h : GoNum.Holds ⟨s, w⟩ z) : GoNum.Holds ⟨s, w'⟩ z := by
  have key : ∀ {a b : Nat}, a ≤ b → (2 : Int) ^ a ≤ 2 ^ b := fun {a b} h => by exact_mod_cast Nat.pow_le_pow_right (n := 2) (by omega) h
  have h1 := key hw
  have h2 := key (show w - 1 ≤ w' - 1 by omega)
  simp only [GoNum.Holds] at h ⊢
  split_ifs at h ⊢ <;> omega

theorem foldr_max_le {l : List Nat} {w : Nat} (h : ∀ n ∈ l, n ≤ w) : l.foldr max 0 ≤ w := by
  induction l with
  | nil => exact Nat.zero_le _
  | cons x l ih => exact Nat.max_le.2 ⟨h x (by simp), ih fun n hn => h n (by simp [hn])⟩

theorem small_inRange {env : GoEnv} (henv : env.Ok) {st : GoState} {e : TEx} {l : List NType} (h : e.Arith l) :
    ∀ r, e.Declared env → e.res = .ok r → (∀ n ∈ l, n.IsInt) → e.Small env st → e.InRange env st := by
  induction h with
  | sym => intro r _ _ _ _; trivial
  | paren _ ih => intro r hd hr hi hs; exact ih r hd hr hi hs
  | @arith o a b l m ha hb iha ihb =>
    intro r hd hr hi hs
    have hr0 := hr
    simp only [TEx.res] at hr
    obtain ⟨ra, hra, hr⟩ := bind_ok hr
    obtain ⟨rb, hrb, hr⟩ := bind_ok hr
    refine ⟨iha ra hd.2.1 hra (fun n hn => hi n (List.mem_append_left _ hn)) hs.1,
      ihb rb hd.2.2 hrb (fun n hn => hi n (List.mem_append_right _ hn)) hs.2.1, fun g hg => ?_⟩
    obtain ⟨h1, _, _, _, h5⟩ := arith_sound henv (.arith (o := o) ha hb) r hd hr0
    rcases arith_isResult henv h1 hr0 h5 hg with ⟨⟨n, hn, hf⟩, _⟩ | ⟨⟨n, hn, w, hf⟩, _⟩ | ⟨_, w, hw, rfl, hv⟩
    · exact absurd (hi n hn) hf.not_int
    · exact absurd (hi n hn) hf.not_int
    · refine ⟨_, rfl, fun x y hx hy => ?_⟩
      have hle : ((l ++ m).map (·.valueBits)).foldr max 0 ≤ w := foldr_max_le (by
        intro k hk
        obtain ⟨n, hn, rfl⟩ := List.mem_map.1 hk
        exact hv n hn)
      obtain ⟨q1, q2, q3⟩ := hs.2.2 x y hx hy
      rw [Arith.operands ha, Arith.operands hb] at q1 q2 q3
      exact ⟨Holds.mono hle q1, Holds.mono hle q2, fun z hz => Holds.mono hle (q3 z hz)⟩

/-- **C67, arithmetic.** An arithmetic expression over fields and parameters of integer types, whatever their types, has in Go
the value it has in the schema, if no operation leaves the range of the widest of its fields. -/
theorem C67_arithmetic_partial (env : GoEnv) (henv : env.Ok) (st : GoState) (e : TEx) (l : List NType) (h : e.Arith l)
    (hi : ∀ n ∈ l, n.IsInt) (r : Operand) (hd : e.Declared env) (hr : e.res = .ok r) (hp : e.toPEx.Safe) (hs : e.Small env st)
    (v : GVal) (hv : e.val env st = some v) :
    ∃ ts, printGo e.toPEx = some ts ∧ (∃ g, Derives 1 ts g) ∧ ∀ p g, Derives p ts g → goEval env st g.strip = some v :=
  C67_value_partial env henv st e r v hd hr (arith_sound henv h r hd hr).2.1 hp (small_inRange henv h r hd hr hi hs) hv

/-! ## Wrong values -/

/-- A = 200, B = 0, I = -1, F = true, get() = 300. -/
def demoState : GoState where
  prim g := match g with
    | .sel (.name _) t => ([("A", GVal.int 200), ("B", .int 0), ("I", .int (-1)), ("F", .bool true), ("C", .int 2), ("D", .int 3),
      ("M", .int 6)].map fun x => (x.1.toList, x.2)).lookup t
    | .call0 _ => some (.int 300)
    | .name t => if t = "true".toList then some (.bool true) else some (.int 4)
    | _ => none
  elem _ i := if i = 0 then some 7 else none
  len _ := 1
  numBits z := z

/-- The expression compiles to a text that means something else: its value is `v`, that of the text `w`. -/
def Differs (env : GoEnv) (st : GoState) (e : TEx) (v w : GVal) : Prop :=
  e.Declared env ∧ (∃ r, e.res = .ok r) ∧ e.Sound env ∧ e.toPEx.Safe ∧ e.val env st = some v ∧ goEval env st (meant e.toPEx) = some w

theorem fieldA_arith : fieldA.Arith [⟨"uint8", 0, false⟩] := .sym ⟨.inl rfl, .inl (.inr ⟨by decide +kernel, rfl, rfl⟩)⟩
theorem fieldB_arith : fieldB.Arith [⟨"uint16", 0, false⟩] := .sym ⟨.inl rfl, .inl (.inr ⟨by decide +kernel, rfl, rfl⟩)⟩
theorem fieldI_arith : fieldI.Arith [⟨"int8", 0, false⟩] := .sym ⟨.inl rfl, .inl (.inr ⟨by decide +kernel, rfl, rfl⟩)⟩

/-- `a + a` with a uint8 `a` of 200 is 144, also where the result is wanted as a uint16. -/
theorem C67_violated_overflow : Differs demoEnv demoState (.arith .add fieldA fieldA) (.int 400) (.int 144) ∧
    goEval demoEnv demoState (.call (.name "uint16".toList) (meant (TEx.arith .add fieldA fieldA).toPEx)) = some (.int 144) :=
  ⟨⟨⟨rfl, fieldA_declared, fieldA_declared⟩, ⟨_, rfl⟩, (arith_sound demo_ok (.arith (o := .add) fieldA_arith fieldA_arith) _
    ⟨rfl, fieldA_declared, fieldA_declared⟩ rfl).2.1, by simp [TEx.toPEx, PEx.Safe, PEx.level, goPrec, fieldA], by decide +kernel,
    by decide +kernel⟩, by decide +kernel⟩

/-- `i + b` with an int8 `i` of -1 and a uint16 `b` of 0 is 65535. -/
theorem C67_violated_sign : Differs demoEnv demoState (.arith .add fieldI fieldB) (.int (-1)) (.int 65535) :=
  ⟨⟨rfl, fieldI_declared, fieldB_declared⟩, ⟨⟨.integer, some ⟨"uint16", 0, false⟩⟩, by decide +kernel⟩,
    (arith_sound demo_ok (.arith (o := .add) fieldI_arith fieldB_arith) ⟨.integer, some ⟨"uint16", 0, false⟩⟩
    ⟨rfl, fieldI_declared, fieldB_declared⟩ (by decide +kernel)).2.1, by simp [TEx.toPEx, PEx.Safe, PEx.level, goPrec, fieldI, fieldB],
    by decide +kernel, by decide +kernel⟩

/-- `get() + a` with a uint8 `a` of 200 and a function of type uint16 whose result of 300 is an expression of type uint8: the
result is cut to eight bits although its declared type has sixteen. -/
theorem C67_violated_call : Differs demoEnv demoState (.arith .add callGet fieldA) (.int 500) (.int 244) := by
  refine ⟨⟨rfl, callGet_declared, fieldA_declared⟩, ⟨⟨.integer, some ⟨"uint8", 0, false⟩⟩, by decide +kernel⟩, ⟨trivial, trivial, fun h => ?_, fun h => ?_, ?_⟩,
    by simp [TEx.toPEx, PEx.Safe, PEx.level, goPrec, callGet, fieldA], by decide +kernel, by decide +kernel⟩
  · simp [callGet, TEx.cval] at h
  · simp [callGet, TEx.isNumber] at h
  · rw [show (TEx.arith .add callGet fieldA).res = .ok ⟨.integer, some ⟨"uint8", 0, false⟩⟩ by decide +kernel]
    exact ⟨fun g _ => ⟨fun z hz => (by cases hz), fun z hz => (by cases hz), fun _ _ hz => (by cases hz)⟩, .inr (.inl rfl), .inr (.inl rfl)⟩

/-- `isset(Mask.X, m)` with an item of 4 and a field of 6, which has two bits: the text is true as soon as one of them is set. -/
theorem C67_violated_isset : Differs demoEnv demoState (.isset (.item "MaskX".toList "Mask".toList true 4) fieldM) (.bool false)
    (.bool true) := by
  refine ⟨⟨⟨by decide +kernel, by decide +kernel⟩, fieldM_declared⟩, ⟨_, rfl⟩, ⟨trivial, trivial, fun h => ?_, .named "Mask".toList,
    .inl ⟨by decide +kernel, rfl⟩⟩, by simp [TEx.toPEx, PEx.Safe, PEx.level, fieldM], by decide +kernel, by decide +kernel⟩
  simp [fieldM, TEx.cval] at h

/-! ## The hypotheses can be met -/

/-- `(b + a) * b` with 0 and 200. -/
example : (TEx.arith .mul (.paren (.arith .add fieldB fieldA)) fieldB).Small demoEnv demoState ∧
    (TEx.arith .mul (.paren (.arith .add fieldB fieldA)) fieldB).val demoEnv demoState = some (.int 0) := by
  refine ⟨⟨⟨trivial, trivial, fun x y hx hy => ?_⟩, trivial, fun x y hx hy => ?_⟩, by decide +kernel⟩
  · have h1 : fieldB.val demoEnv demoState = some (.int 0) := by decide +kernel
    have h2 : fieldA.val demoEnv demoState = some (.int 200) := by decide +kernel
    rw [h1] at hx; rw [h2] at hy
    cases hx; cases hy
    exact ⟨by decide +kernel, by decide +kernel, fun c hc => by cases hc; decide +kernel⟩
  · have h1 : fieldB.val demoEnv demoState = some (.int 0) := by decide +kernel
    have h2 : (TEx.paren (.arith .add fieldB fieldA)).val demoEnv demoState = some (.int 200) := by decide +kernel
    rw [h2] at hx; rw [h1] at hy
    cases hx; cases hy
    exact ⟨by decide +kernel, by decide +kernel, fun c hc => by cases hc; decide +kernel⟩

/-- `isset(m, Mask.X)` with 6 and 4. -/
example : (TEx.isset fieldM (.item "MaskX".toList "Mask".toList true 4)).InRange demoEnv demoState ∧
    (TEx.isset fieldM (.item "MaskX".toList "Mask".toList true 4)).val demoEnv demoState = some (.bool true) := by
  refine ⟨⟨trivial, (by decide +kernel : demoState.prim (.name "MaskX".toList) = some (.int 4)), fun g hg => ⟨⟨false, 32⟩, ?_, fun x y hx hy => ?_,
    fun y hy => ?_⟩⟩, by decide +kernel⟩
  · have h : (TEx.bit .band fieldM (.item "MaskX".toList "Mask".toList true 4)).goTy demoEnv = some (.named "Mask".toList) := by decide +kernel
    rw [h] at hg; cases hg; decide +kernel
  · have h1 : fieldM.val demoEnv demoState = some (.int 6) := by decide +kernel
    rw [h1] at hx
    cases hx; cases hy
    exact ⟨by decide +kernel, by decide +kernel, fun c hc => by cases hc; decide +kernel⟩
  · cases hy
    exact ⟨2, rfl⟩

end Verif
