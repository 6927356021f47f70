import Verif.Props.Consts
import Verif.Props.Ints
import Mathlib.Data.Int.Bitwise
import Mathlib.Data.Nat.Log

/-!
# C33, C58: what folding computes
-/

namespace Verif

variable {F : Type}

/-! ## Specification -/

/-- Values. -/
inductive SVal where
  | int (z : Int)
  | bool (b : Bool)
  | str (t : Text)
deriving DecidableEq

/-- The operators on two values. `w` says what becomes of a number that is the result of an operator: it may be out of range. -/
def semBin (w : Int → Option Int) : BOp → SVal → SVal → Option SVal
  | .add, .int x, .int y => (w (x + y)).map .int
  | .sub, .int x, .int y => (w (x - y)).map .int
  | .mul, .int x, .int y => (w (x * y)).map .int
  | .div, .int x, .int y => if y = 0 then none else (w (x.tdiv y)).map .int
  | .mod, .int x, .int y => if y = 0 then none else some (.int (x.tmod y))
  | .shl, .int x, .int y => if y < 0 then none else (w (x * 2 ^ y.toNat)).map .int
  | .shr, .int x, .int y => if y < 0 then none else some (.int (x / 2 ^ y.toNat))
  | .band, .int x, .int y => some (.int (Int.land x y))
  | .bor, .int x, .int y => some (.int (Int.lor x y))
  | .bxor, .int x, .int y => some (.int (Int.xor x y))
  | .lt, .int x, .int y => some (.bool (decide (x < y)))
  | .le, .int x, .int y => some (.bool (decide (x ≤ y)))
  | .gt, .int x, .int y => some (.bool (decide (x > y)))
  | .ge, .int x, .int y => some (.bool (decide (x ≥ y)))
  | .eq, .int x, .int y => some (.bool (decide (x = y)))
  | .ne, .int x, .int y => some (.bool (decide (x ≠ y)))
  | .add, .str x, .str y => some (.str (x ++ y))
  | .eq, .str x, .str y => some (.bool (decide (x = y)))
  | .ne, .str x, .str y => some (.bool (decide (x ≠ y)))
  | .eq, .bool x, .bool y => some (.bool (decide (x = y)))
  | .ne, .bool x, .bool y => some (.bool (decide (x ≠ y)))
  | .land, .bool x, .bool y => some (.bool (x && y))
  | .lor, .bool x, .bool y => some (.bool (x || y))
  | _, _, _ => none

/-- The operators on one value. `numbits(v)` is the number of bits for the numbers below `v`, and at least 1 for `v = 1`. -/
def semUn (w : Int → Option Int) : UnOp → SVal → Option SVal
  | .paren, v => some v
  | .plus, .int x => some (.int x)
  | .minus, .int x => (w (-x)).map .int
  | .bang, .bool b => some (.bool (!b))
  | .tilde, .int x => some (.int (-x - 1))
  | .numbits, .int x => some (.int (if x = 1 then 1 else Nat.clog 2 (x % 2 ^ 64).toNat))
  | _, _ => none

/-- The value of an expression: operands of `&&`, `||` and `?:` that are not needed are not evaluated. -/
def sem (w : Int → Option Int) (env : Text → Option SVal) : Ex F → Option SVal
  | .leaf r full ok =>
    if full && ok then
      match r.ty with
      | some .integer => some (.int r.i.toInt)
      | some .bool => some (.bool r.b)
      | some .string => some (.str r.s)
      | _ => none
    else none
  | .ref n => env n
  | .un op e => (sem w env e).bind (semUn w op)
  | .bin op a b =>
    (sem w env a).bind fun x =>
      if op = .land ∧ x = .bool false then some (.bool false)
      else if op = .lor ∧ x = .bool true then some (.bool true)
      else (sem w env b).bind fun y => semBin w op x y
  | .tern c a b =>
    (sem w env c).bind fun x =>
      match x with
      | .bool true => sem w env a
      | .bool false => sem w env b
      | _ => none

/-- Go's int64: numbers wrap. -/
def wrap64 (z : Int) : Option Int := some (z.bmod (2 ^ 64))

/-- Mathematics: a number must fit into an int64. -/
def fits64 (z : Int) : Option Int := if -2 ^ 63 ≤ z ∧ z < 2 ^ 63 then some z else none

/-- Types. -/
inductive STy where
  | int | bool | str
deriving DecidableEq

/-- Expressions of integers, truth values and strings. The comparison of truth values and `numbits` are left out: see
`C33_violated_bool` and `C33_violated_numbits`. -/
inductive HasTy (Γ : Text → Option STy) : Ex F → STy → Prop
  | int (r : Res F) : r.ty = some .integer → r.native = none → HasTy Γ (.leaf r true true) .int
  | bool (r : Res F) : r.ty = some .bool → HasTy Γ (.leaf r true true) .bool
  | str (r : Res F) : r.ty = some .string → HasTy Γ (.leaf r true true) .str
  | ref (n : Text) (t : STy) : Γ n = some t → HasTy Γ (.ref n) t
  | paren (e : Ex F) (t : STy) : HasTy Γ e t → HasTy Γ (.un .paren e) t
  | un (op : UnOp) (e : Ex F) : op ∈ [UnOp.plus, .minus, .tilde] → HasTy Γ e .int → HasTy Γ (.un op e) .int
  | bang (e : Ex F) : HasTy Γ e .bool → HasTy Γ (.un .bang e) .bool
  | arith (op : BOp) (a b : Ex F) : op ∈ [BOp.add, .sub, .mul, .div, .mod, .shl, .shr, .band, .bor, .bxor] →
      HasTy Γ a .int → HasTy Γ b .int → HasTy Γ (.bin op a b) .int
  | concat (a b : Ex F) : HasTy Γ a .str → HasTy Γ b .str → HasTy Γ (.bin .add a b) .str
  | cmp (op : BOp) (a b : Ex F) : op ∈ [BOp.lt, .le, .gt, .ge, .eq, .ne] →
      HasTy Γ a .int → HasTy Γ b .int → HasTy Γ (.bin op a b) .bool
  | cmpStr (op : BOp) (a b : Ex F) : op ∈ [BOp.eq, .ne] → HasTy Γ a .str → HasTy Γ b .str → HasTy Γ (.bin op a b) .bool
  | logic (op : BOp) (a b : Ex F) : op ∈ [BOp.land, .lor] → HasTy Γ a .bool → HasTy Γ b .bool → HasTy Γ (.bin op a b) .bool
  | tern (c a b : Ex F) (t : STy) : HasTy Γ c .bool → HasTy Γ a t → HasTy Γ b t → HasTy Γ (.tern c a b) t

/-- A folded result stands for a value of a type. The exact zserio type of a constant number is open, or uint32 after a shift. -/
def Stands (t : STy) (r : Res F) (v : SVal) : Prop :=
  match t with
  | .int => r.ty = some .integer ∧ v = .int r.i.toInt ∧ (r.native = none ∨ r.native = some ⟨"uint32", 0, false⟩)
  | .bool => r.ty = some .bool ∧ v = .bool r.b
  | .str => r.ty = some .string ∧ v = .str r.s

/-- The constants in scope are folded to their values. -/
def EnvStands (Γ : Text → Option STy) (env : Text → Ans F) (senv : Text → Option SVal) : Prop :=
  ∀ n t, Γ n = some t → ∃ r v, env n = .found r ∧ senv n = some v ∧ Stands t r v

/-- Every part of an expression has a property. -/
def Ex.All (p : Ex F → Prop) : Ex F → Prop
  | .leaf r full ok => p (.leaf r full ok)
  | .ref n => p (.ref n)
  | .un op e => p (.un op e) ∧ e.All p
  | .bin op a b => p (.bin op a b) ∧ a.All p ∧ b.All p
  | .tern c a b => p (.tern c a b) ∧ c.All p ∧ a.All p ∧ b.All p

theorem Ex.All.here {p : Ex F → Prop} {e : Ex F} (h : e.All p) : p e := by
  cases e <;> first | exact h | exact h.1

/-! ## Bits -/

theorem toInt_nonneg_eq (x : BitVec 64) (h : x.msb = false) : x.toInt = Int.ofNat x.toNat := by
  rw [BitVec.toInt_eq_msb_cond, h]; simp

theorem toInt_neg_eq (x : BitVec 64) (h : x.msb = true) : x.toInt = Int.negSucc (~~~x).toNat := by
  rw [BitVec.toInt_eq_msb_cond, h]
  have := x.isLt
  simp only [BitVec.toNat_not, if_true]
  omega

theorem not_bit (x : BitVec 64) (i : Nat) : (~~~x).toNat.testBit i = (decide (i < 64) && !x.toNat.testBit i) := by
  simp only [BitVec.testBit_toNat, BitVec.getLsbD_not]

theorem bit_high (x : BitVec 64) (i : Nat) (h : ¬ i < 64) : x.toNat.testBit i = false := by
  rw [BitVec.testBit_toNat]; exact BitVec.getLsbD_of_ge _ _ (by omega)

/-- Two numbers are equal that are made bit by bit of two words. -/
macro "bits_case" : tactic => `(tactic| (
    apply Nat.eq_of_testBit_eq
    intro i
    simp only [Nat.testBit_ldiff, not_bit, BitVec.toNat_and, BitVec.toNat_or, BitVec.toNat_xor, Nat.testBit_and,
      Nat.testBit_or, Nat.testBit_xor]
    by_cases hi : i < 64
    · simp only [hi, decide_true, Bool.true_and]
      generalize Nat.testBit _ i = a
      generalize Nat.testBit _ i = b
      revert a b
      decide
    · simp [hi, bit_high _ i hi]))

theorem and_toInt (x y : BitVec 64) : (x &&& y).toInt = Int.land x.toInt y.toInt := by
  cases hx : x.msb <;> cases hy : y.msb
  · rw [toInt_nonneg_eq x hx, toInt_nonneg_eq y hy, toInt_nonneg_eq _ (by simp [hx])]
    exact congrArg Int.ofNat (BitVec.toNat_and _ _)
  · rw [toInt_nonneg_eq x hx, toInt_neg_eq y hy, toInt_nonneg_eq _ (by simp [hx])]
    exact congrArg Int.ofNat (by bits_case)
  · rw [toInt_neg_eq x hx, toInt_nonneg_eq y hy, toInt_nonneg_eq _ (by simp [hy])]
    exact congrArg Int.ofNat (by bits_case)
  · rw [toInt_neg_eq x hx, toInt_neg_eq y hy, toInt_neg_eq _ (by simp [hx, hy])]
    exact congrArg Int.negSucc (by bits_case)

theorem or_toInt (x y : BitVec 64) : (x ||| y).toInt = Int.lor x.toInt y.toInt := by
  cases hx : x.msb <;> cases hy : y.msb
  · rw [toInt_nonneg_eq x hx, toInt_nonneg_eq y hy, toInt_nonneg_eq _ (by simp [hx, hy])]
    exact congrArg Int.ofNat (BitVec.toNat_or _ _)
  · rw [toInt_nonneg_eq x hx, toInt_neg_eq y hy, toInt_neg_eq _ (by simp [hy])]
    exact congrArg Int.negSucc (by bits_case)
  · rw [toInt_neg_eq x hx, toInt_nonneg_eq y hy, toInt_neg_eq _ (by simp [hx])]
    exact congrArg Int.negSucc (by bits_case)
  · rw [toInt_neg_eq x hx, toInt_neg_eq y hy, toInt_neg_eq _ (by simp [hx])]
    exact congrArg Int.negSucc (by bits_case)

theorem xor_toInt (x y : BitVec 64) : (x ^^^ y).toInt = Int.xor x.toInt y.toInt := by
  cases hx : x.msb <;> cases hy : y.msb
  · rw [toInt_nonneg_eq x hx, toInt_nonneg_eq y hy, toInt_nonneg_eq _ (by simp [hx, hy])]
    exact congrArg Int.ofNat (BitVec.toNat_xor _ _)
  · rw [toInt_nonneg_eq x hx, toInt_neg_eq y hy, toInt_neg_eq _ (by simp [hx, hy])]
    exact congrArg Int.negSucc (by bits_case)
  · rw [toInt_neg_eq x hx, toInt_nonneg_eq y hy, toInt_neg_eq _ (by simp [hx, hy])]
    exact congrArg Int.negSucc (by bits_case)
  · rw [toInt_neg_eq x hx, toInt_neg_eq y hy, toInt_nonneg_eq _ (by simp [hx, hy])]
    exact congrArg Int.ofNat (by bits_case)

theorem not_toInt (x : BitVec 64) : (~~~x).toInt = -x.toInt - 1 := by
  cases hx : x.msb
  · rw [toInt_nonneg_eq x hx, toInt_neg_eq _ (by simp [hx]), BitVec.not_not, Int.ofNat_eq_natCast]; omega
  · rw [toInt_neg_eq x hx, toInt_nonneg_eq _ (by simp [hx]), Int.ofNat_eq_natCast]; omega

theorem shl_toInt (x : BitVec 64) (n : Nat) : (x <<< n).toInt = (x.toInt * 2 ^ n).bmod (2 ^ 64) := by
  rw [BitVec.toInt_shiftLeft, Nat.shiftLeft_eq]
  have h : x.toInt = (x.toNat : Int).bmod (2 ^ 64) := BitVec.toInt_eq_toNat_bmod x
  rw [h, Int.bmod_mul_bmod]
  push_cast
  rfl

theorem toNat_of_nonneg (y : BitVec 64) (h : ¬ y.toInt < 0) : y.toNat = y.toInt.toNat := by
  have := BitVec.toInt_eq_toNat_cond y
  split at this <;> have := y.isLt <;> omega

/-! ## One operator -/

theorem mix_open (a b : Option NType) (ha : a = none ∨ a = some ⟨"uint32", 0, false⟩) (hb : b = none ∨ b = some ⟨"uint32", 0, false⟩) :
    ∃ t : Option NType, mixTypes ⟨.integer, a⟩ ⟨.integer, b⟩ = .ok ⟨.integer, t⟩ ∧ (t = none ∨ t = some ⟨"uint32", 0, false⟩) := by
  rcases ha with rfl | rfl <;> rcases hb with rfl | rfl
  · exact ⟨none, by decide +kernel, .inl rfl⟩
  · exact ⟨some ⟨"uint32", 0, false⟩, by decide +kernel, .inr rfl⟩
  · exact ⟨some ⟨"uint32", 0, false⟩, by decide +kernel, .inr rfl⟩
  · exact ⟨some ⟨"uint32", 0, false⟩, by decide +kernel, .inr rfl⟩

/-- How the folding of one operator relates to its meaning. -/
def Agrees (t : STy) (x : EVal F) (v : Option SVal) : Prop :=
  match v with
  | some v => x.out = .ok ∧ x.full = true ∧ Stands t x.res v
  | none => x.out = .panic

theorem toInt_zero_iff (y : BitVec 64) : y.toInt = 0 ↔ y = 0#64 := by
  constructor
  · intro h; exact BitVec.toInt_inj.1 (by simpa using h)
  · rintro rfl; rfl

theorem sdiv_toInt (x y : BitVec 64) : (x.sdiv y).toInt = (x.toInt.tdiv y.toInt).bmod (2 ^ 64) := by
  rw [BitVec.toInt_sdiv]

theorem arith_step (o : FloatOps F) (op : BOp) (h : op ∈ [BOp.add, .sub, .mul, .div, .mod]) (x y : Res F) (u v : SVal)
    (hx : Stands .int x u) (hy : Stands .int y v) : Agrees .int (evalBin o op x y true) (semBin wrap64 op u v) := by
  obtain ⟨hxt, rfl, hxn⟩ := hx
  obtain ⟨hyt, rfl, hyn⟩ := hy
  obtain ⟨t, ht, htn⟩ := mix_open _ _ hxn hyn
  have key : evalBin o op x y true = evalArith o op x y true := by
    simp only [List.mem_cons, List.not_mem_nil, or_false] at h
    rcases h with rfl | rfl | rfl | rfl | rfl <;> rfl
  rw [key]
  unfold evalArith
  simp only [hxt, hyt, ht, reduceCtorEq, and_self, if_false, if_true, Option.some.injEq]
  simp only [List.mem_cons, List.not_mem_nil, or_false] at h
  rcases h with rfl | rfl | rfl | rfl | rfl
  · simp only [intArith, semBin, wrap64, Option.map_some, Agrees, Stands, true_and]
    exact ⟨by rw [BitVec.toInt_add], htn⟩
  · simp only [intArith, semBin, wrap64, Option.map_some, Agrees, Stands, true_and]
    exact ⟨by rw [BitVec.toInt_sub], htn⟩
  · simp only [intArith, semBin, wrap64, Option.map_some, Agrees, Stands, true_and]
    exact ⟨by rw [BitVec.toInt_mul], htn⟩
  · by_cases hz : y.i = 0#64
    · simp [intArith, semBin, hz, Agrees]
    · have : ¬ y.i.toInt = 0 := fun h => hz ((toInt_zero_iff _).1 h)
      simp only [intArith, semBin, wrap64, if_neg hz, if_neg this, Option.map_some, Agrees, Stands, true_and]
      exact ⟨by rw [sdiv_toInt], htn⟩
  · by_cases hz : y.i = 0#64
    · simp [intArith, semBin, hz, Agrees]
    · have : ¬ y.i.toInt = 0 := fun h => hz ((toInt_zero_iff _).1 h)
      simp only [intArith, semBin, if_neg hz, if_neg this, Agrees, Stands, true_and]
      exact ⟨by rw [BitVec.toInt_srem], htn⟩

theorem bits_step (o : FloatOps F) (op : BOp) (h : op ∈ [BOp.shl, .shr, .band, .bor, .bxor]) (x y : Res F) (u v : SVal)
    (hx : Stands .int x u) (hy : Stands .int y v) : Agrees .int (evalBin o op x y true) (semBin wrap64 op u v) := by
  obtain ⟨hxt, rfl, hxn⟩ := hx
  obtain ⟨hyt, rfl, hyn⟩ := hy
  have hn : ∀ b : Bool, (match x.native with
        | some t => some t
        | none => if b then some ⟨"uint32", 0, false⟩ else y.native) = none ∨
      (match x.native with
        | some t => some t
        | none => if b then some ⟨"uint32", 0, false⟩ else y.native) = some (⟨"uint32", 0, false⟩ : NType) := by
    intro b
    rcases hxn with h | h <;> rw [h]
    · cases b
      · simpa using hyn
      · simp
    · simp
  simp only [List.mem_cons, List.not_mem_nil, or_false] at h
  rcases h with rfl | rfl | rfl | rfl | rfl <;>
    simp only [evalBin, evalBitwise, hxt, hyt, ne_eq, not_true_eq_false, and_false, or_self, if_false, bitArith, semBin]
  · by_cases hz : y.i.toInt < 0
    · simp [hz, Agrees]
    · simp only [if_neg hz, wrap64, Option.map_some, Agrees, Stands, true_and]
      exact ⟨by rw [shl_toInt, toNat_of_nonneg _ hz], hn _⟩
  · by_cases hz : y.i.toInt < 0
    · simp [hz, Agrees]
    · simp only [if_neg hz, Agrees, Stands, true_and]
      exact ⟨by rw [BitVec.toInt_sshiftRight, Int.shiftRight_eq_div_pow, toNat_of_nonneg _ hz]; push_cast; rfl, hn _⟩
  · exact ⟨rfl, rfl, rfl, by rw [and_toInt], hn _⟩
  · exact ⟨rfl, rfl, rfl, by rw [or_toInt], hn _⟩
  · exact ⟨rfl, rfl, rfl, by rw [xor_toInt], hn _⟩

theorem concat_step (o : FloatOps F) (x y : Res F) (u v : SVal)
    (hx : Stands .str x u) (hy : Stands .str y v) : Agrees .str (evalBin o .add x y true) (semBin wrap64 .add u v) := by
  obtain ⟨hxt, rfl⟩ := hx
  obtain ⟨hyt, rfl⟩ := hy
  simp [evalBin, evalArith, hxt, hyt, semBin, Agrees, Stands]

theorem cmp_step (o : FloatOps F) (op : BOp) (h : op ∈ [BOp.lt, .le, .gt, .ge, .eq, .ne]) (x y : Res F) (u v : SVal)
    (hx : Stands .int x u) (hy : Stands .int y v) : Agrees .bool (evalBin o op x y true) (semBin wrap64 op u v) := by
  obtain ⟨hxt, rfl, hxn⟩ := hx
  obtain ⟨hyt, rfl, hyn⟩ := hy
  simp only [List.mem_cons, List.not_mem_nil, or_false] at h
  rcases h with rfl | rfl | rfl | rfl | rfl | rfl <;>
    (simp only [evalBin]; unfold evalCompare;
     simp [hxt, hyt, semBin, Agrees, Stands, BitVec.slt_eq_decide, BitVec.sle_eq_decide, BitVec.toInt_inj])

theorem cmpStr_step (o : FloatOps F) (op : BOp) (h : op ∈ [BOp.eq, .ne]) (x y : Res F) (u v : SVal)
    (hx : Stands .str x u) (hy : Stands .str y v) : Agrees .bool (evalBin o op x y true) (semBin wrap64 op u v) := by
  obtain ⟨hxt, rfl⟩ := hx
  obtain ⟨hyt, rfl⟩ := hy
  simp only [List.mem_cons, List.not_mem_nil, or_false] at h
  rcases h with rfl | rfl <;> (simp only [evalBin]; unfold evalCompare; simp [hxt, hyt, semBin, Agrees, Stands])

theorem logic_step (o : FloatOps F) (op : BOp) (h : op ∈ [BOp.land, .lor]) (x y : Res F) (u v : SVal)
    (hx : Stands .bool x u) (hy : Stands .bool y v) : Agrees .bool (evalBin o op x y true) (semBin wrap64 op u v) := by
  obtain ⟨hxt, rfl⟩ := hx
  obtain ⟨hyt, rfl⟩ := hy
  simp only [List.mem_cons, List.not_mem_nil, or_false] at h
  rcases h with rfl | rfl <;> simp [evalBin, evalLogical, hxt, hyt, semBin, Agrees, Stands]

theorem un_step (o : FloatOps F) (op : UnOp) (h : op ∈ [UnOp.plus, .minus, .tilde]) (x : Res F) (u : SVal)
    (hx : Stands .int x u) :
    ∃ v, semUn wrap64 op u = some v ∧ (evalUn o op x).1 = .ok ∧ Stands .int (evalUn o op x).2 v := by
  obtain ⟨hxt, rfl, hxn⟩ := hx
  simp only [List.mem_cons, List.not_mem_nil, or_false] at h
  rcases h with rfl | rfl | rfl
  · exact ⟨_, rfl, by simp [evalUn, hxt], by simp [evalUn, hxt, Stands, hxn]⟩
  · exact ⟨_, rfl, by simp [evalUn, hxt], by simp [evalUn, hxt, Stands, hxn, BitVec.toInt_neg]⟩
  · exact ⟨_, rfl, by simp [evalUn, hxt], by
      refine ⟨by simp [evalUn, hxt], ?_, by simp [evalUn, hxt, hxn]⟩
      rw [← not_toInt]; simp only [evalUn, hxt]; rfl⟩

/-- The laziness of the specification does not matter where the second operand has a value. -/
theorem sem_bin_eager (w : Int → Option Int) (senv : Text → Option SVal) (op : BOp) (a b : Ex F) (u v : SVal)
    (ha : sem w senv a = some u) (hb : sem w senv b = some v)
    (hb' : ∀ c, u = .bool c → ∃ d, v = .bool d) : sem w senv (.bin op a b) = semBin w op u v := by
  simp only [sem, ha, hb, Option.bind_some]
  split
  · rename_i h
    obtain ⟨rfl, rfl⟩ := h
    obtain ⟨d, rfl⟩ := hb' _ rfl
    simp [semBin]
  · split
    · rename_i h
      obtain ⟨rfl, rfl⟩ := h
      obtain ⟨d, rfl⟩ := hb' _ rfl
      simp [semBin]
    · rfl

/-- What folding makes of an expression. -/
def Folds (t : STy) (x : EVal F) (v : Option SVal) : Prop :=
  x.out = .ok → x.full = true ∧ ∃ u, v = some u ∧ Stands t x.res u

theorem fold_bin {o : FloatOps F} {env : Text → Ans F} {senv : Text → Option SVal} (op : BOp) (a b : Ex F) (t t1 : STy)
    (ha : Folds t1 (fold o env a) (sem wrap64 senv a)) (hb : Folds t1 (fold o env b) (sem wrap64 senv b))
    (step : ∀ x y u v, Stands t1 x u → Stands t1 y v → Agrees t (evalBin o op x y true) (semBin wrap64 op u v)) :
    Folds t (fold o env (.bin op a b)) (sem wrap64 senv (.bin op a b)) := by
  intro hok
  simp only [fold] at hok ⊢
  split at hok
  · rename_i hn; exact absurd hok hn
  rename_i hxo
  rw [if_neg hxo]
  split at hok
  · rename_i hn; exact absurd hok hn
  rename_i hyo
  rw [if_neg hyo]
  obtain ⟨hfx, u, hu, hsu⟩ := ha (by simpa using hxo)
  obtain ⟨hfy, v, hv, hsv⟩ := hb (by simpa using hyo)
  rw [sem_bin_eager wrap64 senv op a b u v hu hv ?_]
  · rw [hfx, hfy] at hok ⊢
    have := step _ _ _ _ hsu hsv
    cases hs : semBin wrap64 op u v with
    | none => rw [hs] at this; simp only [Agrees] at this; simp only [Bool.and_self] at hok; rw [this] at hok; cases hok
    | some r => rw [hs] at this; exact ⟨this.2.1, r, rfl, this.2.2⟩
  · rintro c rfl
    cases t1 with
    | bool => exact ⟨_, hsv.2⟩
    | int => exact nomatch hsu.2.1
    | str => exact nomatch hsu.2

/-- **C33** (part): where folding yields a result, it is the value of the expression (numbers wrap like int64). -/
theorem C33_value_partial (o : FloatOps F) (Γ : Text → Option STy) (env : Text → Ans F) (senv : Text → Option SVal)
    (henv : EnvStands Γ env senv) (e : Ex F) (t : STy) (h : HasTy Γ e t) (hok : (fold o env e).out = .ok) :
    (fold o env e).full = true ∧ ∃ v, sem wrap64 senv e = some v ∧ Stands t (fold o env e).res v := by
  revert hok
  change Folds t (fold o env e) (sem wrap64 senv e)
  induction h with
  | int r h1 h2 => intro _; exact ⟨rfl, .int r.i.toInt, by simp [sem, h1], h1, rfl, .inl h2⟩
  | bool r h1 => intro _; exact ⟨rfl, .bool r.b, by simp [sem, h1], h1, rfl⟩
  | str r h1 => intro _; exact ⟨rfl, .str r.s, by simp [sem, h1], h1, rfl⟩
  | ref n t hn =>
    intro _
    obtain ⟨r, v, he, hs, hst⟩ := henv n t hn
    simp only [fold, he, ansVal, sem]
    exact ⟨trivial, v, hs, hst⟩
  | paren e t _ ih =>
    intro hok
    simp only [fold] at hok ⊢
    split at hok
    · rename_i hn; exact absurd hok hn
    rename_i hxo
    rw [if_neg hxo]
    obtain ⟨hf, u, hu, hs⟩ := ih (by simpa using hxo)
    refine ⟨hf, u, by simp [sem, hu, semUn], ?_⟩
    cases t <;> simpa [evalUn, Stands] using hs
  | un op e hop _ ih =>
    intro hok
    simp only [fold] at hok ⊢
    split at hok
    · rename_i hn; exact absurd hok hn
    rename_i hxo
    rw [if_neg hxo]
    obtain ⟨hf, u, hu, hs⟩ := ih (by simpa using hxo)
    obtain ⟨v, hv, _, hs'⟩ := un_step o op hop _ u hs
    exact ⟨hf, v, by simp [sem, hu, hv], hs'⟩
  | bang e _ ih =>
    intro hok
    simp only [fold] at hok ⊢
    split at hok
    · rename_i hn; exact absurd hok hn
    rename_i hxo
    rw [if_neg hxo]
    obtain ⟨hf, u, hu, hs1, rfl⟩ := ih (by simpa using hxo)
    exact ⟨hf, _, by simp only [sem, hu, semUn, Option.bind_some]; rfl, by simp [evalUn, Stands, hs1]⟩
  | arith op a b hop _ _ iha ihb =>
    apply fold_bin op a b .int .int iha ihb
    intro x y u v hx hy
    by_cases hop' : op ∈ [BOp.add, .sub, .mul, .div, .mod]
    · exact arith_step o op hop' x y u v hx hy
    · refine bits_step o op ?_ x y u v hx hy
      revert hop hop'
      cases op <;> decide
  | concat a b _ _ iha ihb => exact fold_bin .add a b .str .str iha ihb (concat_step o)
  | cmp op a b hop _ _ iha ihb => exact fold_bin op a b .bool .int iha ihb (cmp_step o op hop)
  | cmpStr op a b hop _ _ iha ihb => exact fold_bin op a b .bool .str iha ihb (cmpStr_step o op hop)
  | logic op a b hop _ _ iha ihb => exact fold_bin op a b .bool .bool iha ihb (logic_step o op hop)
  | tern c a b t _ _ _ ihc iha ihb =>
    intro hok
    simp only [fold] at hok ⊢
    split at hok
    · rename_i hn; exact absurd hok hn
    rename_i hxo
    rw [if_neg hxo]
    split at hok
    · rename_i hn; exact absurd hok hn
    rename_i hyo
    rw [if_neg hyo]
    split at hok
    · rename_i hn; exact absurd hok hn
    rename_i hzo
    rw [if_neg hzo]
    obtain ⟨hfc, u, hu, hs1, rfl⟩ := ihc (by simpa using hxo)
    obtain ⟨hfa, va, hva, hsa⟩ := iha (by simpa using hyo)
    obtain ⟨hfb, vb, hvb, hsb⟩ := ihb (by simpa using hzo)
    refine ⟨by simp [hfc, hfa, hfb], ?_⟩
    cases hb : (fold o env c).res.b
    · refine ⟨vb, by simp [sem, hu, hb, hvb], ?_⟩
      cases t <;> simpa [evalTern, Stands, hs1, hb] using hsb
    · refine ⟨va, by simp [sem, hu, hb, hva], ?_⟩
      cases t <;> simpa [evalTern, Stands, hs1, hb] using hsa

theorem fold_bin_ok {o : FloatOps F} {env : Text → Ans F} {senv : Text → Option SVal} (op : BOp) (a b : Ex F) (t t1 : STy)
    (ha : Folds t1 (fold o env a) (sem wrap64 senv a)) (hb : Folds t1 (fold o env b) (sem wrap64 senv b))
    (hao : (fold o env a).out = .ok) (hbo : (fold o env b).out = .ok)
    (hd : sem wrap64 senv (.bin op a b) ≠ none)
    (step : ∀ x y u v, Stands t1 x u → Stands t1 y v → Agrees t (evalBin o op x y true) (semBin wrap64 op u v)) :
    (fold o env (.bin op a b)).out = .ok := by
  obtain ⟨hfx, u, hu, hsu⟩ := ha hao
  obtain ⟨hfy, v, hv, hsv⟩ := hb hbo
  rw [sem_bin_eager wrap64 senv op a b u v hu hv ?_] at hd
  · simp only [fold, hao, hbo, ne_eq, not_true_eq_false, if_false, hfx, hfy, Bool.and_self]
    have := step _ _ _ _ hsu hsv
    cases hs : semBin wrap64 op u v with
    | none => exact absurd hs hd
    | some r => rw [hs] at this; exact this.1
  · rintro c rfl
    cases t1 with
    | bool => exact ⟨_, hsv.2⟩
    | int => exact nomatch hsu.2.1
    | str => exact nomatch hsu.2

/-- **C33** (part): an expression all of whose parts have a value is folded. -/
theorem C33_defined_partial (o : FloatOps F) (Γ : Text → Option STy) (env : Text → Ans F) (senv : Text → Option SVal)
    (henv : EnvStands Γ env senv) (e : Ex F) (t : STy) (h : HasTy Γ e t)
    (hd : e.All fun e' => sem wrap64 senv e' ≠ none) : (fold o env e).out = .ok := by
  have val := fun (e : Ex F) (t : STy) (h : HasTy Γ e t) =>
    show Folds t (fold o env e) (sem wrap64 senv e) from C33_value_partial o Γ env senv henv e t h
  induction h with
  | int r h1 h2 => rfl
  | bool r h1 => rfl
  | str r h1 => rfl
  | ref n t hn =>
    obtain ⟨r, v, he, hs, hst⟩ := henv n t hn
    simp [fold, he, ansVal]
  | paren e t _ ih => simp [fold, ih hd.2, evalUn]
  | un op e hop he ih =>
    obtain ⟨_, u, _, hs⟩ := val e _ he (ih hd.2)
    obtain ⟨v, _, ho, _⟩ := un_step o op hop _ u hs
    simp [fold, ih hd.2, ho]
  | bang e he ih =>
    obtain ⟨_, u, _, hs, _⟩ := val e _ he (ih hd.2)
    simp [fold, ih hd.2, evalUn, hs]
  | arith op a b hop ha hb iha ihb =>
    refine fold_bin_ok op a b .int .int (val a _ ha) (val b _ hb) (iha hd.2.1) (ihb hd.2.2) hd.1 ?_
    intro x y u v hx hy
    by_cases hop' : op ∈ [BOp.add, .sub, .mul, .div, .mod]
    · exact arith_step o op hop' x y u v hx hy
    · refine bits_step o op ?_ x y u v hx hy
      revert hop hop'
      cases op <;> decide
  | concat a b ha hb iha ihb =>
    exact fold_bin_ok .add a b .str .str (val a _ ha) (val b _ hb) (iha hd.2.1) (ihb hd.2.2) hd.1 (concat_step o)
  | cmp op a b hop ha hb iha ihb =>
    exact fold_bin_ok op a b .bool .int (val a _ ha) (val b _ hb) (iha hd.2.1) (ihb hd.2.2) hd.1 (cmp_step o op hop)
  | cmpStr op a b hop ha hb iha ihb =>
    exact fold_bin_ok op a b .bool .str (val a _ ha) (val b _ hb) (iha hd.2.1) (ihb hd.2.2) hd.1 (cmpStr_step o op hop)
  | logic op a b hop ha hb iha ihb =>
    exact fold_bin_ok op a b .bool .bool (val a _ ha) (val b _ hb) (iha hd.2.1) (ihb hd.2.2) hd.1 (logic_step o op hop)
  | tern c a b t hc ha hb ihc iha ihb =>
    obtain ⟨_, u, _, hs, _⟩ := val c _ hc (ihc hd.2.1)
    simp [fold, ihc hd.2.1, iha hd.2.2.1, ihb hd.2.2.2, evalTern, hs]

/-! ## Without overflow -/

theorem fits_wrap (z z' : Int) (h : fits64 z = some z') : wrap64 z = some z' := by
  simp only [fits64] at h
  split at h
  · simp only [Option.some.injEq] at h
    subst h
    simp only [wrap64, Option.some.injEq]
    rw [Int.bmod_eq_of_le] <;> omega
  · cases h

theorem semBin_mono (op : BOp) (x y v : SVal) (h : semBin fits64 op x y = some v) : semBin wrap64 op x y = some v := by
  have key : ∀ z : Int, (fits64 z).map SVal.int = some v → (wrap64 z).map SVal.int = some v := by
    intro z hz
    cases hf : fits64 z with
    | none => rw [hf] at hz; cases hz
    | some z' => rw [fits_wrap z z' hf, ← hf]; exact hz
  cases op <;> cases x <;> cases y <;> simp only [semBin] at h ⊢ <;> first
    | exact h
    | exact key _ h
    | (split at h
       · cases h
       · rename_i hy; rw [if_neg hy]; first | exact h | exact key _ h)

theorem semUn_mono (op : UnOp) (x v : SVal) (h : semUn fits64 op x = some v) : semUn wrap64 op x = some v := by
  have key : ∀ z : Int, (fits64 z).map SVal.int = some v → (wrap64 z).map SVal.int = some v := by
    intro z hz
    cases hf : fits64 z with
    | none => rw [hf] at hz; cases hz
    | some z' => rw [fits_wrap z z' hf, ← hf]; exact hz
  cases op <;> cases x <;> simp only [semUn] at h ⊢ <;> first
    | exact h
    | exact key _ h

theorem sem_mono (senv : Text → Option SVal) (e : Ex F) (v : SVal) (h : sem fits64 senv e = some v) :
    sem wrap64 senv e = some v := by
  induction e generalizing v with
  | leaf r full ok => exact h
  | ref n => exact h
  | un op e ih =>
    simp only [sem, Option.bind_eq_some_iff] at h ⊢
    obtain ⟨x, hx, hv⟩ := h
    exact ⟨x, ih x hx, semUn_mono op x v hv⟩
  | bin op a b iha ihb =>
    simp only [sem, Option.bind_eq_some_iff] at h ⊢
    obtain ⟨x, hx, hv⟩ := h
    refine ⟨x, iha x hx, ?_⟩
    split at hv
    · rename_i hc; rw [if_pos hc]; exact hv
    · rename_i hc
      rw [if_neg hc]
      split at hv
      · rename_i hc'; rw [if_pos hc']; exact hv
      · rename_i hc'
        rw [if_neg hc']
        simp only [Option.bind_eq_some_iff] at hv ⊢
        obtain ⟨y, hy, hv⟩ := hv
        exact ⟨y, ihb y hy, semBin_mono op x y v hv⟩
  | tern c a b ihc iha ihb =>
    simp only [sem, Option.bind_eq_some_iff] at h ⊢
    obtain ⟨x, hx, hv⟩ := h
    refine ⟨x, ihc x hx, ?_⟩
    match x, hv with
    | .bool true, hv => exact iha v hv
    | .bool false, hv => exact ihb v hv

theorem all_mono {p q : Ex F → Prop} (h : ∀ e, p e → q e) (e : Ex F) (he : e.All p) : e.All q := by
  induction e with
  | leaf r full ok => exact h _ he
  | ref n => exact h _ he
  | un op e ih => exact ⟨h _ he.1, ih he.2⟩
  | bin op a b iha ihb => exact ⟨h _ he.1, iha he.2.1, ihb he.2.2⟩
  | tern c a b ihc iha ihb => exact ⟨h _ he.1, ihc he.2.1, iha he.2.2.1, ihb he.2.2.2⟩

/-- **C33** (part): an expression all of whose parts have a mathematical value that fits into an int64 is folded to its
mathematical value. -/
theorem C33_exact_partial (o : FloatOps F) (Γ : Text → Option STy) (env : Text → Ans F) (senv : Text → Option SVal)
    (henv : EnvStands Γ env senv) (e : Ex F) (t : STy) (h : HasTy Γ e t)
    (hd : e.All fun e' => sem fits64 senv e' ≠ none) :
    (fold o env e).out = .ok ∧ (fold o env e).full = true ∧
      ∃ v, sem fits64 senv e = some v ∧ Stands t (fold o env e).res v := by
  have hd' : e.All fun e' => sem wrap64 senv e' ≠ none := by
    apply all_mono _ e hd
    intro e' he' hc
    obtain ⟨v, hv⟩ := Option.ne_none_iff_exists'.1 he'
    rw [sem_mono senv e' v hv] at hc
    cases hc
  have hok := C33_defined_partial o Γ env senv henv e t h hd'
  obtain ⟨hf, v, hv, hs⟩ := C33_value_partial o Γ env senv henv e t h hok
  refine ⟨hok, hf, v, ?_, hs⟩
  obtain ⟨v', hv'⟩ := Option.ne_none_iff_exists'.1 hd.here
  rw [sem_mono senv e v' hv'] at hv
  rw [hv', hv]

/-! ## Violations -/

/-- A bool literal. -/
def Ex.tt (b : Bool) : Ex Unit := .leaf { Res.init noFloats with ty := some .bool, b := b } true true

/-- **C33** does not hold: `true == true` is folded to false. -/
theorem C33_violated_bool (env : Text → Ans Unit) (senv : Text → Option SVal) :
    (fold noFloats env (.bin .eq (.tt true) (.tt true))).out = .ok ∧
    (fold noFloats env (.bin .eq (.tt true) (.tt true))).res.ty = some .bool ∧
    (fold noFloats env (.bin .eq (.tt true) (.tt true))).res.b = false ∧
    sem fits64 senv (.bin .eq (.tt true) (.tt true)) = some (.bool true) := by
  refine ⟨rfl, rfl, rfl, ?_⟩
  simp [sem, Ex.tt, Res.init, semBin]

/-- **C33** does not hold: `numbits(2^k)` is folded to k + 1 instead of k, for every k from 2 to 62. -/
theorem C33_violated_numbits (env : Text → Ans Unit) (senv : Text → Option SVal) (k : Nat) (h1 : 2 ≤ k) (h2 : k ≤ 62) :
    (fold noFloats env (.un .numbits (.int (2 ^ k)))).out = .ok ∧
    (fold noFloats env (.un .numbits (.int (2 ^ k)))).res.i.toInt = k + 1 ∧
    sem fits64 senv (.un .numbits (.int (2 ^ k))) = some (.int k) := by
  have hlt : 2 ^ k < 2 ^ 63 := Nat.pow_lt_pow_right (by decide) (by omega)
  have h4 : 2 ^ 2 ≤ 2 ^ k := Nat.pow_le_pow_right (by decide) h1
  have hn : (BitVec.ofNat 64 (2 ^ k)).toNat = 2 ^ k := by
    rw [BitVec.toNat_ofNat]; exact Nat.mod_eq_of_lt (by omega)
  have hi : (BitVec.ofNat 64 (2 ^ k)).toInt = (2 ^ k : Nat) := by
    rw [BitVec.toInt_eq_toNat_cond, hn, if_pos (by omega)]
  refine ⟨by simp [fold, Ex.int, evalUn], ?_, ?_⟩
  · simp only [fold, Ex.int, if_true, ne_eq, not_true_eq_false, if_false, evalUn, hn, Nat.size_pow]
    rw [BitVec.toInt_eq_toNat_cond, BitVec.toNat_ofNat, Nat.mod_eq_of_lt (by omega), if_pos (by omega)]
    push_cast; rfl
  · simp only [sem, Ex.int, Bool.and_self, if_true, Option.bind_some, semUn, hi]
    have hm : (((2 ^ k : Nat) : Int) % 2 ^ 64).toNat = 2 ^ k := by
      generalize 2 ^ k = m at *
      omega
    rw [hm, if_neg (by generalize 2 ^ k = m at *; omega), Nat.clog_pow 2 k (by decide)]

/-- **C33** does not hold: an operand that is not needed is evaluated, so `true || 1 / 0 == 0` crashes. -/
theorem C33_violated_lazy (env : Text → Ans Unit) (senv : Text → Option SVal) :
    let e : Ex Unit := .bin .lor (.tt true) (.bin .eq (.bin .div (.int 1) (.int 0)) (.int 0))
    (fold noFloats env e).out = .panic ∧ sem fits64 senv e = some (.bool true) := by
  refine ⟨rfl, ?_⟩
  simp [sem, Ex.tt, Res.init]

/-- **C33** does not hold: `1 << 63`, a number of the type uint64, is folded to a negative number. -/
theorem C33_violated_uint64 (env : Text → Ans Unit) :
    (fold noFloats env (.bin .shl (.int 1) (.int 63))).out = .ok ∧
    (fold noFloats env (.bin .shl (.int 1) (.int 63))).res.i.toInt = -2 ^ 63 := by
  refine ⟨rfl, ?_⟩
  rw [fold_congr noFloats env (fun _ => .missing) _ (by simp [Ex.names, Ex.int])]
  decide +kernel

/-! ## C58: floating point numbers -/

/-- The type of floating point numbers without suffix. -/
def float64Type : NType := ⟨"float64", 0, false⟩

/-- The result fields of a floating point number. -/
def Res.float (o : FloatOps F) (x : F) : Res F := { Res.init o with ty := some .float, f := x, native := some float64Type }

/-- A floating point literal without suffix (/repo/internal/ast/expression.go:898-901). -/
def Ex.float (o : FloatOps F) (x : F) : Ex F := .leaf (.float o x) true true

/-- Expressions of floating point numbers with two-operand operators only, and their values. -/
inductive FloatSem (o : FloatOps F) : Ex F → F → Prop
  | lit (x : F) : FloatSem o (.float o x) x
  | add (a b : Ex F) (x y : F) : FloatSem o a x → FloatSem o b y → FloatSem o (.bin .add a b) (o.add x y)
  | sub (a b : Ex F) (x y : F) : FloatSem o a x → FloatSem o b y → FloatSem o (.bin .sub a b) (o.sub x y)
  | mul (a b : Ex F) (x y : F) : FloatSem o a x → FloatSem o b y → FloatSem o (.bin .mul a b) (o.mul x y)
  | div (a b : Ex F) (x y : F) : FloatSem o a x → FloatSem o b y → FloatSem o (.bin .div a b) (o.div x y)

theorem mix_float : mixTypes ⟨.float, some float64Type⟩ ⟨.float, some float64Type⟩ = .ok ⟨.float, some float64Type⟩ := by
  decide +kernel

/-- **C58 (part).** A sum, difference, product or quotient of floating point literals, nested to any depth without
parentheses, is folded to its value. -/
theorem C58_fold_partial (o : FloatOps F) (env : Text → Ans F) (e : Ex F) (x : F) (h : FloatSem o e x) :
    fold o env e = ⟨.ok, .float o x, true⟩ := by
  induction h with
  | lit x => rfl
  | add a b x y _ _ iha ihb => simp [fold, iha, ihb, evalBin, evalArith, Res.init, Res.float, mix_float, floatArith]
  | sub a b x y _ _ iha ihb => simp [fold, iha, ihb, evalBin, evalArith, Res.init, Res.float, mix_float, floatArith]
  | mul a b x y _ _ iha ihb => simp [fold, iha, ihb, evalBin, evalArith, Res.init, Res.float, mix_float, floatArith]
  | div a b x y _ _ iha ihb => simp [fold, iha, ihb, evalBin, evalArith, Res.init, Res.float, mix_float, floatArith]

example (o : FloatOps F) (x y z : F) :
    FloatSem o (.bin .add (.float o x) (.bin .mul (.float o y) (.float o z))) (o.add x (o.mul y z)) :=
  .add _ _ _ _ (.lit x) (.mul _ _ _ _ (.lit y) (.lit z))

/-- **C58, violated.** Every floating point expression in parentheses, with a sign, or in `? :` is folded to zero. -/
theorem C58_violated_zero (o : FloatOps F) (env : Text → Ans F) (e : Ex F) (x : F) (h : FloatSem o e x) :
    (∀ op ∈ [UnOp.paren, .plus, .minus],
      fold o env (.un op e) = ⟨.ok, .float o o.zero, true⟩) ∧
    ∀ c r, fold o env c = ⟨.ok, r, true⟩ → r.ty = some .bool → ∀ e' x', FloatSem o e' x' →
      fold o env (.tern c e e') = ⟨.ok, .float o o.zero, true⟩ := by
  have he := C58_fold_partial o env e x h
  constructor
  · intro op hop
    simp only [List.mem_cons, List.not_mem_nil, or_false] at hop
    rcases hop with rfl | rfl | rfl <;> simp [fold, he, evalUn, Res.init, Res.float]
  · intro c r hc hr e' x' h'
    have he' := C58_fold_partial o env e' x' h'
    cases hb : r.b <;> simp [fold, hc, he, he', evalTern, hr, Res.init, Res.float, hb]

/-- A case: `a * 2 + 1 > 6 && (a & 1) == 1` with `a = 3`. -/
def sampleEx : Ex Unit :=
  .bin .land (.bin .gt (.bin .add (.bin .mul (.ref ['a']) (.int 2)) (.int 1)) (.int 6))
    (.bin .eq (.un .paren (.bin .band (.ref ['a']) (.int 1))) (.int 1))

def sampleEnv : Text → Ans Unit := fun _ => .found { Res.init noFloats with ty := some .integer, i := 3#64 }

def sampleSem : Text → Option SVal := fun _ => some (.int 3)

example : HasTy (fun _ => some .int) sampleEx .bool ∧ EnvStands (fun _ => some .int) sampleEnv sampleSem ∧
    (sampleEx.All fun e' => sem fits64 sampleSem e' ≠ none) ∧ sem fits64 sampleSem sampleEx = some (.bool true) ∧
    (fold noFloats sampleEnv sampleEx).res.b = true := by
  refine ⟨?_, ?_, ?_, by decide +kernel, by decide +kernel⟩
  · refine .logic _ _ _ (by decide) (.cmp _ _ _ (by decide) (.arith _ _ _ (by decide) (.arith _ _ _ (by decide) (.ref _ _ rfl) ?_) ?_) ?_)
      (.cmp _ _ _ (by decide) (.paren _ _ (.arith _ _ _ (by decide) (.ref _ _ rfl) ?_)) ?_) <;> exact .int _ rfl rfl
  · intro n t ht
    cases ht
    exact ⟨_, _, rfl, rfl, rfl, by decide +kernel, .inl rfl⟩
  · simp only [Ex.All, sampleEx, Ex.int]
    decide +kernel

end Verif
