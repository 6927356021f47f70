import Verif.ItemValues
import Verif.Props.Enum

/-!
# C88: items written with other items have the values that the schema says

The specification `VMeans` gives an expression its value as a number, as the zserio language does: an item has the value of its expression, or one
more than the item before it; a bitmask value without an expression is the smallest power of two above the value before it.  It has neither
states nor orders of evaluation.

* `C88_values_partial`: when the schema is accepted, all items and bitmask values have these values in the generated code, modulo 2⁶⁴, whatever the order of
  evaluation, if arithmetic is only done on numbers and constants, and no expression mentions a bitmask value.
* `C88_accepts_partial`: without references from item to item the schema is accepted.
* `C88_violated_sum`: the sum of an enum item and a number is 2, always.
* `C88_violated_flag`: an enum item that is written with a bitmask value counts it as 0.
* `C88_violated_order`: a reference to an item without expression makes the program panic or not, depending on the order of a Go map.
* `C88_violated_forward`: a reference to a later item of the same enum is refused, although it is not circular.
-/

namespace Verif

/-- The value of an expression. -/
inductive VMeans (S : ItemSchema) : VEx → Int → Prop
  | num (v : BitVec 64) : VMeans S (.num v) v.toInt
  | paren {x v} : VMeans S x v → VMeans S (.paren x) v
  | valueof {x v} : VMeans S x v → VMeans S (.valueof x) v
  | add {x y v w} : VMeans S x v → VMeans S y w → VMeans S (.bin .add x y) (v + w)
  | sub {x y v w} : VMeans S x v → VMeans S y w → VMeans S (.bin .sub x y) (v - w)
  | mul {x y v w} : VMeans S x v → VMeans S y w → VMeans S (.bin .mul x y) (v * w)
  | item {e k l x v} : S.enums[e]? = some l → l[k]? = some (some x) → VMeans S x v → VMeans S (.item e k) v
  | itemFirst {e l} : S.enums[e]? = some l → l[0]? = some Option.none → VMeans S (.item e 0) 0
  | itemNext {e k l v} : S.enums[e]? = some l → l[k + 1]? = some Option.none → VMeans S (.item e k) v → VMeans S (.item e (k + 1)) (v + 1)
  | flag {b k l x v} : S.bitmasks[b]? = some l → l[k]? = some (some x) → VMeans S x v → VMeans S (.flag b k) v
  | flagFirst {b l} : S.bitmasks[b]? = some l → l[0]? = some Option.none → VMeans S (.flag b 0) 1
  | flagNext {b k l v} {p : Nat} : S.bitmasks[b]? = some l → l[k + 1]? = some Option.none → VMeans S (.flag b k) v →
      v < 2 ^ p → (∀ j : Nat, v < 2 ^ j → p ≤ j) → VMeans S (.flag b (k + 1)) (2 ^ p)

/-- Sums, differences and products of numbers. -/
def VEx.numeric : VEx → Bool
  | .num _ => true
  | .paren x => x.numeric
  | .bin .add x y | .bin .sub x y | .bin .mul x y => x.numeric && y.numeric
  | _ => false

/-- Those, or another enum item. -/
def VEx.plain : VEx → Bool
  | .item _ _ => true
  | .paren x => x.plain
  | x => x.numeric

/-- All expressions of the members. -/
def ItemSchema.all (S : ItemSchema) (p : VEx → Bool) : Prop :=
  ∀ l ∈ S.enums ++ S.bitmasks, ∀ x : VEx, some x ∈ l → p x = true

variable {F : Type}

theorem member?_eq {l : List (List (Option VEx))} {e k : Nat} {x : Option VEx} (h : member? l e k = some x) :
    ∃ m, l[e]? = some m ∧ m[k]? = some x := by
  obtain ⟨m, h1, h2⟩ := Option.bind_eq_some_iff.1 h
  exact ⟨m, h1, h2⟩

theorem member?_mk {l : List (List (Option VEx))} {e k : Nat} {m : List (Option VEx)} {x : Option VEx} (h : l[e]? = some m) (h' : m[k]? = some x) :
    member? l e k = some x := by simp [member?, h, h']

/-- Evaluated items have their values. -/
structure ItemsGood (o : FloatOps F) (S : ItemSchema) (st : VState F) : Prop where
  val : ∀ e k c, st.items e k = some c → c.status = .complete → ∃ v, VMeans S (.item e k) v ∧ c.res = Res.int o (BitVec.ofInt 64 v)
  nil : ∀ e k, st.items e k = Option.none → ∀ x, member? S.enums e k ≠ some (some x)

/-- Evaluated items are not touched again, and the bitmasks are not touched at all. -/
structure ItemsLater (st st' : VState F) : Prop where
  keep : ∀ e k c, st.items e k = some c → c.status = .complete → st'.items e k = some c
  flags : st'.flags = st.flags

theorem ItemsLater.refl (st : VState F) : ItemsLater st st := ⟨fun _ _ _ h _ => h, rfl⟩

theorem ItemsLater.trans {a b c : VState F} (h : ItemsLater a b) (h' : ItemsLater b c) : ItemsLater a c :=
  ⟨fun e k x hx hc => h'.keep e k x (h.keep e k x hx hc) hc, h'.flags.trans h.flags⟩

/-- What is needed of `Enum.Evaluate`. -/
def EnumSound (o : FloatOps F) (S : ItemSchema) (ev : Nat → VState F → Option (Out × VState F)) : Prop :=
  ∀ e st out st', ItemsGood o S st → ev e st = some (out, st') → ItemsGood o S st' ∧ ItemsLater st st' ∧
    (out = .ok → ∀ k x, member? S.enums e k = some x → ∃ c, st'.items e k = some c ∧ c.status = .complete)

theorem evalBin_int (o : FloatOps F) (op : BOp) (hop : op = .add ∨ op = .sub ∨ op = .mul) (a b : BitVec 64) :
    ∃ v, intArith op a b = some v ∧ evalBin o op (Res.int o a) (Res.int o b) true = ⟨.ok, Res.int o v, true⟩ := by
  have hm : mixTypes ⟨.integer, Option.none⟩ ⟨.integer, Option.none⟩ = .ok ⟨.integer, Option.none⟩ := rfl
  rcases hop with rfl | rfl | rfl <;>
    exact ⟨_, rfl, by simp [evalBin, evalArith, Res.int, Res.init, hm, intArith]⟩

theorem evalV_numeric (o : FloatOps F) (S : ItemSchema) (ev : Nat → VState F → Option (Out × VState F)) (x : VEx) (hx : x.numeric = true) (st : VState F) :
    ∃ v, VMeans S x v ∧ evalV o S ev x st = some (⟨.ok, Res.int o (BitVec.ofInt 64 v), true⟩, st) := by
  induction x generalizing st with
  | num v => exact ⟨v.toInt, .num v, by simp [evalV]⟩
  | item e k => simp [VEx.numeric] at hx
  | flag e k => simp [VEx.numeric] at hx
  | valueof x ih => simp [VEx.numeric] at hx
  | paren x ih =>
    obtain ⟨v, hv, he⟩ := ih (by simpa [VEx.numeric] using hx) st
    exact ⟨v, .paren hv, by simp [evalV, he, evalUn, Res.int, Res.init]⟩
  | bin op x y ihx ihy =>
    have key : (op = .add ∨ op = .sub ∨ op = .mul) ∧ x.numeric = true ∧ y.numeric = true := by
      cases op <;> simp [VEx.numeric] at hx ⊢ <;> exact hx
    obtain ⟨hop, h1, h2⟩ := key
    obtain ⟨v, hv, he⟩ := ihx h1 st
    obtain ⟨w, hw, hf⟩ := ihy h2 st
    obtain ⟨u, hu, hg⟩ := evalBin_int o op hop (BitVec.ofInt 64 v) (BitVec.ofInt 64 w)
    have hr : evalV o S ev (.bin op x y) st = some (⟨.ok, Res.int o u, true⟩, st) := by
      simp [evalV, he, hf, hg]
    rcases hop with rfl | rfl | rfl
    · exact ⟨v + w, .add hv hw, by rw [hr]; simp only [intArith, Option.some.injEq] at hu; rw [← hu, BitVec.ofInt_add]⟩
    · refine ⟨v - w, .sub hv hw, ?_⟩
      rw [hr]; simp only [intArith, Option.some.injEq] at hu
      rw [← hu, sub_eq_add_neg v w, BitVec.ofInt_add, BitVec.ofInt_neg, ← BitVec.sub_eq_add_neg]
    · exact ⟨v * w, .mul hv hw, by rw [hr]; simp only [intArith, Option.some.injEq] at hu; rw [← hu, BitVec.ofInt_mul]⟩

theorem dotItem_sound (o : FloatOps F) (S : ItemSchema) (ev : Nat → VState F → Option (Out × VState F)) (hev : EnumSound o S ev) (e k : Nat)
    (st st' : VState F) (r : EVal F) (hg : ItemsGood o S st) (h : dotItem o S ev e k st = some (r, st')) :
    ItemsGood o S st' ∧ ItemsLater st st' ∧ (r.out = .ok → ∃ v, VMeans S (.item e k) v ∧ r.res = Res.int o (BitVec.ofInt 64 v)) := by
  unfold dotItem at h
  cases hm : member? S.enums e k with
  | none => simp only [hm, Option.some.injEq, Prod.mk.injEq] at h; obtain ⟨rfl, rfl⟩ := h; exact ⟨hg, .refl _, by simp⟩
  | some x =>
    cases hi : st.items e k with
    | none => simp only [hm, hi, Option.some.injEq, Prod.mk.injEq] at h; obtain ⟨rfl, rfl⟩ := h; exact ⟨hg, .refl _, by simp⟩
    | some c =>
      simp only [hm, hi] at h
      by_cases hc : c.status = .complete
      · simp only [hc, if_true, Option.some.injEq, Prod.mk.injEq] at h
        obtain ⟨rfl, rfl⟩ := h
        exact ⟨hg, .refl _, fun _ => hg.val e k c hi hc⟩
      · simp only [hc, if_false] at h
        cases hv : ev e st with
        | none => simp [hv] at h
        | some p =>
          obtain ⟨out, st1⟩ := p
          obtain ⟨g1, l1, c1⟩ := hev e st out st1 hg hv
          simp only [hv] at h
          cases out with
          | ok =>
            obtain ⟨c2, hc2, hs2⟩ := c1 rfl k x hm
            simp only [hc2, Option.some.injEq, Prod.mk.injEq] at h
            obtain ⟨rfl, rfl⟩ := h
            exact ⟨g1, l1, fun _ => g1.val e k c2 hc2 hs2⟩
          | err => simp only [Option.some.injEq, Prod.mk.injEq] at h; obtain ⟨rfl, rfl⟩ := h; exact ⟨g1, l1, by simp⟩
          | panic => simp only [Option.some.injEq, Prod.mk.injEq] at h; obtain ⟨rfl, rfl⟩ := h; exact ⟨g1, l1, by simp⟩

theorem evalV_plain (o : FloatOps F) (S : ItemSchema) (ev : Nat → VState F → Option (Out × VState F)) (hev : EnumSound o S ev) (x : VEx)
    (hx : x.plain = true) (st st' : VState F) (r : EVal F) (hg : ItemsGood o S st) (h : evalV o S ev x st = some (r, st')) :
    ItemsGood o S st' ∧ ItemsLater st st' ∧ (r.out = .ok → ∃ v, VMeans S x v ∧ r.res = Res.int o (BitVec.ofInt 64 v)) := by
  have num : x.numeric = true →
      ItemsGood o S st' ∧ ItemsLater st st' ∧ (r.out = .ok → ∃ v, VMeans S x v ∧ r.res = Res.int o (BitVec.ofInt 64 v)) := by
    intro hn
    obtain ⟨v, hv, he⟩ := evalV_numeric o S ev x hn st
    rw [he] at h
    simp only [Option.some.injEq, Prod.mk.injEq] at h
    obtain ⟨rfl, rfl⟩ := h
    exact ⟨hg, .refl _, fun _ => ⟨v, hv, rfl⟩⟩
  induction x generalizing st' r with
  | num v => exact num rfl
  | flag => simp [VEx.plain, VEx.numeric] at hx
  | valueof => simp [VEx.plain, VEx.numeric] at hx
  | bin op x y => exact num (by simpa [VEx.plain] using hx)
  | item e k => exact dotItem_sound o S ev hev e k st st' r hg (by simpa [evalV] using h)
  | paren x ih =>
    cases hp : evalV o S ev x st with
    | none => simp [evalV, hp] at h
    | some p =>
      obtain ⟨s, st1⟩ := p
      obtain ⟨g1, l1, c1⟩ := ih (by simpa [VEx.plain] using hx) st1 s hp (by
        intro hn
        obtain ⟨v, hv, he⟩ := evalV_numeric o S ev x hn st
        rw [he] at hp
        simp only [Option.some.injEq, Prod.mk.injEq] at hp
        obtain ⟨rfl, rfl⟩ := hp
        exact ⟨hg, .refl _, fun _ => ⟨v, hv, rfl⟩⟩)
      by_cases ho : s.out = .ok
      · simp only [evalV, hp, ho, ne_eq, not_true_eq_false, if_false, Option.some.injEq, Prod.mk.injEq] at h
        obtain ⟨rfl, rfl⟩ := h
        obtain ⟨v, hv, hr⟩ := c1 ho
        exact ⟨g1, l1, fun _ => ⟨v, .paren hv, by simp [evalUn, hr, Res.int, Res.init]⟩⟩
      · simp only [evalV, hp, ne_eq, ho, not_false_eq_true, if_true, Option.some.injEq, Prod.mk.injEq] at h
        obtain ⟨rfl, rfl⟩ := h
        exact ⟨g1, l1, fun hh => absurd hh ho⟩

theorem setItem_same (st : VState F) (e k : Nat) (c : CState F) : (st.setItem e k c).items e k = some c := by simp [VState.setItem]

theorem setItem_other (st : VState F) (e k e' k' : Nat) (c : CState F) (h : ¬ (e' = e ∧ k' = k)) :
    (st.setItem e k c).items e' k' = st.items e' k' := by simp only [VState.setItem, if_neg h]

theorem ItemsGood.set {o : FloatOps F} {S : ItemSchema} {st : VState F} (hg : ItemsGood o S st) (e k : Nat) (c : CState F)
    (hc : c.status = .complete → ∃ v, VMeans S (.item e k) v ∧ c.res = Res.int o (BitVec.ofInt 64 v)) : ItemsGood o S (st.setItem e k c) := by
  refine ⟨fun e' k' c' h hs => ?_, fun e' k' h => ?_⟩
  · by_cases he : e' = e ∧ k' = k
    · obtain ⟨rfl, rfl⟩ := he
      rw [setItem_same] at h
      cases h
      exact hc hs
    · rw [setItem_other _ _ _ _ _ _ he] at h
      exact hg.val e' k' c' h hs
  · by_cases he : e' = e ∧ k' = k
    · obtain ⟨rfl, rfl⟩ := he; rw [setItem_same] at h; cases h
    · rw [setItem_other _ _ _ _ _ _ he] at h; exact hg.nil e' k' h

theorem ItemsLater.set {st : VState F} (e k : Nat) (c : CState F) (hc : ∀ c', st.items e k = some c' → c'.status ≠ .complete) :
    ItemsLater st (st.setItem e k c) := by
  refine ⟨fun e' k' c' h hs => ?_, rfl⟩
  by_cases he : e' = e ∧ k' = k
  · obtain ⟨rfl, rfl⟩ := he; exact absurd hs (hc c' h)
  · rw [setItem_other _ _ _ _ _ _ he]; exact h

theorem evaluateItem_sound (o : FloatOps F) (S : ItemSchema) (hS : S.all VEx.plain) (ev : Nat → VState F → Option (Out × VState F))
    (hev : EnumSound o S ev) (e k : Nat) (x : Option VEx) (hm : member? S.enums e k = some x) (st st' : VState F) (out : Out)
    (hg : ItemsGood o S st) (hprev : ∀ j, k = j + 1 → ∃ c, st.items e j = some c ∧ c.status = .complete)
    (h : evaluateItem o S ev e k x st = some (out, st')) :
    ItemsGood o S st' ∧ ItemsLater st st' ∧ (out = .ok → ∃ c, st'.items e k = some c ∧ c.status = .complete) := by
  obtain ⟨m, hm1, hm2⟩ := member?_eq hm
  unfold evaluateItem at h
  cases hi : st.items e k with
  | none =>
    simp only [hi] at h
    have hx : x = Option.none := by
      cases x with
      | none => rfl
      | some y => exact absurd hm (hg.nil e k hi y)
    subst hx
    cases k with
    | zero =>
      simp only [Option.some.injEq, Prod.mk.injEq] at h
      obtain ⟨rfl, rfl⟩ := h
      exact ⟨hg.set _ _ _ fun _ => ⟨0, .itemFirst hm1 hm2, rfl⟩, .set _ _ _ (by simp [hi]), fun _ => ⟨_, setItem_same _ _ _ _, rfl⟩⟩
    | succ j =>
      obtain ⟨c, hc, hs⟩ := hprev j rfl
      obtain ⟨v, hv, hr⟩ := hg.val e j c hc hs
      simp only [hc, hr, Res.int, if_true, Option.some.injEq, Prod.mk.injEq] at h
      obtain ⟨rfl, rfl⟩ := h
      refine ⟨hg.set _ _ _ fun _ => ⟨v + 1, .itemNext hm1 hm2 hv, ?_⟩, .set _ _ _ (by simp [hi]), fun _ => ⟨_, setItem_same _ _ _ _, rfl⟩⟩
      rw [BitVec.ofInt_add]; rfl
  | some c =>
    cases x with
    | none =>
      simp only [hi, Option.some.injEq, Prod.mk.injEq] at h
      obtain ⟨h1, rfl⟩ := h
      refine ⟨hg, .refl _, fun ho => ⟨c, hi, ?_⟩⟩
      by_contra hn
      rw [if_neg hn] at h1; rw [← h1] at ho; cases ho
    | some x =>
      simp only [hi] at h
      cases hs : c.status with
      | complete =>
        simp only [hs, Option.some.injEq, Prod.mk.injEq] at h
        obtain ⟨rfl, rfl⟩ := h
        exact ⟨hg, .refl _, fun _ => ⟨c, hi, hs⟩⟩
      | inProgress =>
        simp only [hs, Option.some.injEq, Prod.mk.injEq] at h
        obtain ⟨rfl, rfl⟩ := h
        exact ⟨hg, .refl _, by simp⟩
      | notStarted =>
        simp only [hs] at h
        have g1 : ItemsGood o S (st.setItem e k ⟨.inProgress, Res.init o⟩) := hg.set _ _ _ (by simp)
        have hnc : ∀ c', st.items e k = some c' → c'.status ≠ .complete := by
          intro c' hc'; rw [hi] at hc'; cases hc'; rw [hs]; simp
        have hpl : x.plain = true := hS m (List.mem_append_left _ (List.mem_of_getElem? hm1)) x (List.mem_of_getElem? hm2)
        cases hv : evalV o S ev x (st.setItem e k ⟨.inProgress, Res.init o⟩) with
        | none => simp [hv] at h
        | some p =>
          obtain ⟨v, st2⟩ := p
          obtain ⟨g2, l2, c2⟩ := evalV_plain o S ev hev x hpl _ st2 v g1 hv
          have lat : ∀ c', ItemsLater st (st2.setItem e k c') := by
            intro c'
            refine ⟨fun e' k' d hd hds => ?_, by
              show st2.flags = st.flags
              exact l2.flags⟩
            have hne : ¬ (e' = e ∧ k' = k) := by rintro ⟨rfl, rfl⟩; exact hnc d hd hds
            rw [setItem_other _ _ _ _ _ _ hne]
            exact l2.keep e' k' d (by rw [setItem_other _ _ _ _ _ _ hne]; exact hd) hds
          simp only [hv] at h
          cases ho : v.out with
          | ok =>
            simp only [ho, Option.some.injEq, Prod.mk.injEq] at h
            obtain ⟨rfl, rfl⟩ := h
            obtain ⟨w, hw, hr⟩ := c2 ho
            exact ⟨g2.set _ _ _ fun _ => ⟨w, .item hm1 hm2 hw, hr⟩, lat _, fun _ => ⟨_, setItem_same _ _ _ _, rfl⟩⟩
          | err =>
            simp only [ho, Option.some.injEq, Prod.mk.injEq] at h
            obtain ⟨rfl, rfl⟩ := h
            exact ⟨g2.set _ _ _ (by simp), lat _, by simp⟩
          | panic =>
            simp only [ho, Option.some.injEq, Prod.mk.injEq] at h
            obtain ⟨rfl, rfl⟩ := h
            exact ⟨g2, (ItemsLater.set e k _ hnc).trans l2, by simp⟩

theorem enumItemsLoop_sound (o : FloatOps F) (S : ItemSchema) (hS : S.all VEx.plain) (ev : Nat → VState F → Option (Out × VState F))
    (hev : EnumSound o S ev) (e : Nat) (m : List (Option VEx)) (hm : S.enums[e]? = some m) (xs pre : List (Option VEx)) (hpre : m = pre ++ xs)
    (st st' : VState F) (out : Out) (hg : ItemsGood o S st) (hdone : ∀ k, k < pre.length → ∃ c, st.items e k = some c ∧ c.status = .complete)
    (h : enumItemsLoop o S ev e pre.length xs st = some (out, st')) :
    ItemsGood o S st' ∧ ItemsLater st st' ∧ (out = .ok → ∀ k, k < m.length → ∃ c, st'.items e k = some c ∧ c.status = .complete) := by
  induction xs generalizing pre st with
  | nil =>
    simp only [enumItemsLoop, Option.some.injEq, Prod.mk.injEq] at h
    obtain ⟨rfl, rfl⟩ := h
    subst hpre
    exact ⟨hg, .refl _, fun _ k hk => hdone k (by simpa using hk)⟩
  | cons x xs ih =>
    have hx : member? S.enums e pre.length = some x := member?_mk hm (by rw [hpre]; simp)
    rw [enumItemsLoop] at h
    cases he : evaluateItem o S ev e pre.length x st with
    | none => simp [he] at h
    | some p =>
      obtain ⟨o1, st1⟩ := p
      obtain ⟨g1, l1, c1⟩ := evaluateItem_sound o S hS ev hev e pre.length x hx st st1 o1 hg (fun j hj => hdone j (by omega)) he
      simp only [he] at h
      cases o1 with
      | ok =>
        obtain ⟨g2, l2, c2⟩ := ih (pre ++ [x]) (by simp [hpre]) st1 g1 (by
          intro k hk
          rw [List.length_append, List.length_singleton] at hk
          by_cases hkk : k = pre.length
          · subst hkk; exact c1 rfl
          · obtain ⟨c, hc, hs⟩ := hdone k (by omega)
            exact ⟨c, l1.keep _ _ _ hc hs, hs⟩) (by simpa using h)
        exact ⟨g2, l1.trans l2, c2⟩
      | err => simp only [Option.some.injEq, Prod.mk.injEq] at h; obtain ⟨rfl, rfl⟩ := h; exact ⟨g1, l1, by simp⟩
      | panic => simp only [Option.some.injEq, Prod.mk.injEq] at h; obtain ⟨rfl, rfl⟩ := h; exact ⟨g1, l1, by simp⟩

theorem evaluateEnum_sound (o : FloatOps F) (S : ItemSchema) (hS : S.all VEx.plain) (fuel : Nat) : EnumSound o S (evaluateEnum o S fuel) := by
  induction fuel with
  | zero => intro e st out st' _ h; simp [evaluateEnum] at h
  | succ fuel ih =>
    intro e st out st' hg h
    rw [evaluateEnum] at h
    cases hm : S.enums[e]? with
    | none =>
      rw [List.getD_eq_getElem?_getD, hm] at h
      simp only [Option.getD_none, enumItemsLoop, Option.some.injEq, Prod.mk.injEq] at h
      obtain ⟨rfl, rfl⟩ := h
      refine ⟨hg, .refl _, fun _ k x hx => ?_⟩
      obtain ⟨m, hm1, _⟩ := member?_eq hx
      rw [hm] at hm1; cases hm1
    | some m =>
      rw [List.getD_eq_getElem?_getD, hm] at h
      obtain ⟨g, l, c⟩ := enumItemsLoop_sound o S hS _ ih e m hm m [] rfl st st' out hg (by simp) h
      refine ⟨g, l, fun ho k x hx => ?_⟩
      obtain ⟨m', hm1, hm2⟩ := member?_eq hx
      rw [hm] at hm1; cases hm1
      exact c ho k (List.getElem?_eq_some_iff.1 hm2).1

theorem evaluateEnums_sound (o : FloatOps F) (S : ItemSchema) (hS : S.all VEx.plain) (fuel : Nat) (es : List Nat) (st st' : VState F)
    (hg : ItemsGood o S st) (h : evaluateEnums o S fuel es st = some (.ok, st')) :
    ItemsGood o S st' ∧ ItemsLater st st' ∧ ∀ e ∈ es, ∀ k x, member? S.enums e k = some x → ∃ c, st'.items e k = some c ∧ c.status = .complete := by
  induction es generalizing st with
  | nil =>
    simp only [evaluateEnums, Option.some.injEq, Prod.mk.injEq, true_and] at h
    subst h
    exact ⟨hg, .refl _, by simp⟩
  | cons e es ih =>
    rw [evaluateEnums] at h
    cases he : evaluateEnum o S fuel e st with
    | none => simp [he] at h
    | some p =>
      obtain ⟨o1, st1⟩ := p
      obtain ⟨g1, l1, c1⟩ := evaluateEnum_sound o S hS fuel e st o1 st1 hg he
      simp only [he] at h
      cases o1 with
      | ok =>
        obtain ⟨g2, l2, c2⟩ := ih st1 g1 h
        refine ⟨g2, l1.trans l2, fun e' he' k x hx => ?_⟩
        rcases List.mem_cons.1 he' with rfl | he'
        · obtain ⟨c, hc, hs⟩ := c1 rfl k x hx
          exact ⟨c, l2.keep _ _ _ hc hs, hs⟩
        · exact c2 e' he' k x hx
      | err => simp at h
      | panic => simp at h

/-! ## Bitmasks -/

/-- Evaluated bitmask values have their values. -/
structure FlagsGood (o : FloatOps F) (S : ItemSchema) (st : VState F) : Prop where
  val : ∀ b k c, st.flags b k = some c → c.status = .complete → ∃ v, VMeans S (.flag b k) v ∧ c.res = Res.int o (BitVec.ofInt 64 v)
  nil : ∀ b k, st.flags b k = Option.none → ∀ x, member? S.bitmasks b k ≠ some (some x)

/-- What stays when bitmasks are evaluated. -/
structure FlagsLater (st st' : VState F) : Prop where
  keep : ∀ b k c, st.flags b k = some c → c.status = .complete → st'.flags b k = some c
  items : ∀ e k c, st.items e k = some c → c.status = .complete → st'.items e k = some c

theorem FlagsLater.refl (st : VState F) : FlagsLater st st := ⟨fun _ _ _ h _ => h, fun _ _ _ h _ => h⟩

theorem FlagsLater.trans {a b c : VState F} (h : FlagsLater a b) (h' : FlagsLater b c) : FlagsLater a c :=
  ⟨fun e k x hx hc => h'.keep e k x (h.keep e k x hx hc) hc, fun e k x hx hc => h'.items e k x (h.items e k x hx hc) hc⟩

/-- The value before an implicit bitmask value leaves room for one more bit in the generated `int64`. -/
def ItemSchema.HasRoom (S : ItemSchema) : Prop :=
  ∀ b k l, S.bitmasks[b]? = some l → l[k + 1]? = some Option.none → ∀ v, VMeans S (.flag b k) v → -2 ^ 63 ≤ v ∧ v < 2 ^ 62

theorem setFlag_same (st : VState F) (e k : Nat) (c : CState F) : (st.setFlag e k c).flags e k = some c := by simp [VState.setFlag]

theorem setFlag_other (st : VState F) (e k e' k' : Nat) (c : CState F) (h : ¬ (e' = e ∧ k' = k)) :
    (st.setFlag e k c).flags e' k' = st.flags e' k' := by simp only [VState.setFlag, if_neg h]

theorem FlagsGood.set {o : FloatOps F} {S : ItemSchema} {st : VState F} (hg : FlagsGood o S st) (e k : Nat) (c : CState F)
    (hc : c.status = .complete → ∃ v, VMeans S (.flag e k) v ∧ c.res = Res.int o (BitVec.ofInt 64 v)) : FlagsGood o S (st.setFlag e k c) := by
  refine ⟨fun e' k' c' h hs => ?_, fun e' k' h => ?_⟩
  · by_cases he : e' = e ∧ k' = k
    · obtain ⟨rfl, rfl⟩ := he
      rw [setFlag_same] at h
      cases h
      exact hc hs
    · rw [setFlag_other _ _ _ _ _ _ he] at h
      exact hg.val e' k' c' h hs
  · by_cases he : e' = e ∧ k' = k
    · obtain ⟨rfl, rfl⟩ := he; rw [setFlag_same] at h; cases h
    · rw [setFlag_other _ _ _ _ _ _ he] at h; exact hg.nil e' k' h

theorem FlagsLater.set {st : VState F} (e k : Nat) (c : CState F) (hc : ∀ c', st.flags e k = some c' → c'.status ≠ .complete) :
    FlagsLater st (st.setFlag e k c) := by
  refine ⟨fun e' k' c' h hs => ?_, fun _ _ _ h _ => h⟩
  by_cases he : e' = e ∧ k' = k
  · obtain ⟨rfl, rfl⟩ := he; exact absurd hs (hc c' h)
  · rw [setFlag_other _ _ _ _ _ _ he]; exact h

theorem ItemsGood.setFlag {o : FloatOps F} {S : ItemSchema} {st : VState F} (h : ItemsGood o S st) (e k : Nat) (c : CState F) :
    ItemsGood o S (st.setFlag e k c) := ⟨h.val, h.nil⟩

theorem FlagsGood.of_flags {o : FloatOps F} {S : ItemSchema} {st st' : VState F} (h : FlagsGood o S st) (he : st'.flags = st.flags) :
    FlagsGood o S st' := ⟨fun b k c hc => h.val b k c (by rw [← he]; exact hc), fun b k hc => h.nil b k (by rw [← he]; exact hc)⟩

theorem findNext_ofInt (v : Int) (h1 : -2 ^ 63 ≤ v) (h2 : v < 2 ^ 62) :
    ∃ p : Nat, findNextFreeBit (BitVec.ofInt 64 v) = BitVec.ofInt 64 (2 ^ p) ∧ v < 2 ^ p ∧ ∀ j : Nat, v < 2 ^ j → p ≤ j := by
  have hv : (BitVec.ofInt 64 v).toInt = v := by
    rw [BitVec.toInt_ofInt]
    norm_num at h1 h2 ⊢
    rw [Int.bmod_eq_of_le_mul_two] <;> omega
  obtain ⟨p, _, _, h3, h4, h5⟩ := findNextFreeBit_toInt (BitVec.ofInt 64 v) (by rw [hv]; exact h2)
  rw [hv] at h4 h5
  exact ⟨p, by rw [← h3, BitVec.ofInt_toInt], h4, h5⟩

theorem evaluateFlag_sound (o : FloatOps F) (S : ItemSchema) (hS : S.all VEx.plain) (hroom : S.HasRoom) (fuel b k : Nat) (x : Option VEx)
    (hm : member? S.bitmasks b k = some x) (st st' : VState F) (out : Out) (hi0 : ItemsGood o S st)
    (hg : FlagsGood o S st) (hprev : ∀ j, k = j + 1 → ∃ c, st.flags b j = some c ∧ c.status = .complete)
    (h : evaluateFlag o S fuel b k x st = some (out, st')) :
    ItemsGood o S st' ∧ FlagsGood o S st' ∧ FlagsLater st st' ∧ (out = .ok → ∃ c, st'.flags b k = some c ∧ c.status = .complete) := by
  obtain ⟨m, hm1, hm2⟩ := member?_eq hm
  unfold evaluateFlag at h
  cases hi : st.flags b k with
  | none =>
    simp only [hi] at h
    have hx : x = Option.none := by
      cases x with
      | none => rfl
      | some y => exact absurd hm (hg.nil b k hi y)
    subst hx
    cases k with
    | zero =>
      simp only [Option.some.injEq, Prod.mk.injEq] at h
      obtain ⟨rfl, rfl⟩ := h
      exact ⟨hi0.setFlag _ _ _, hg.set _ _ _ fun _ => ⟨1, .flagFirst hm1 hm2, rfl⟩, .set _ _ _ (by simp [hi]), fun _ => ⟨_, setFlag_same _ _ _ _, rfl⟩⟩
    | succ j =>
      obtain ⟨c, hc, hs⟩ := hprev j rfl
      obtain ⟨v, hv, hr⟩ := hg.val b j c hc hs
      simp only [hc, hr, Res.int, if_true, Option.some.injEq, Prod.mk.injEq] at h
      obtain ⟨rfl, rfl⟩ := h
      obtain ⟨r1, r2⟩ := hroom b j m hm1 hm2 v hv
      obtain ⟨p, hp, hp1, hp2⟩ := findNext_ofInt v r1 r2
      refine ⟨hi0.setFlag _ _ _, hg.set _ _ _ fun _ => ⟨2 ^ p, .flagNext hm1 hm2 hv hp1 hp2, ?_⟩, .set _ _ _ (by simp [hi]),
        fun _ => ⟨_, setFlag_same _ _ _ _, rfl⟩⟩
      rw [hp]; rfl
  | some c =>
    cases x with
    | none =>
      simp only [hi, Option.some.injEq, Prod.mk.injEq] at h
      obtain ⟨h1, rfl⟩ := h
      refine ⟨hi0, hg, .refl _, fun ho => ⟨c, hi, ?_⟩⟩
      by_contra hn
      rw [if_neg hn] at h1; rw [← h1] at ho; cases ho
    | some x =>
      simp only [hi] at h
      cases hs : c.status with
      | complete =>
        simp only [hs, Option.some.injEq, Prod.mk.injEq] at h
        obtain ⟨rfl, rfl⟩ := h
        exact ⟨hi0, hg, .refl _, fun _ => ⟨c, hi, hs⟩⟩
      | inProgress =>
        simp only [hs, Option.some.injEq, Prod.mk.injEq] at h
        obtain ⟨rfl, rfl⟩ := h
        exact ⟨hi0, hg, .refl _, by simp⟩
      | notStarted =>
        simp only [hs] at h
        have g1 : FlagsGood o S (st.setFlag b k ⟨.inProgress, Res.init o⟩) := hg.set _ _ _ (by simp)
        have hnc : ∀ c', st.flags b k = some c' → c'.status ≠ .complete := by
          intro c' hc'; rw [hi] at hc'; cases hc'; rw [hs]; simp
        have hpl : x.plain = true := hS m (List.mem_append_right _ (List.mem_of_getElem? hm1)) x (List.mem_of_getElem? hm2)
        cases hv : evalV o S (evaluateEnum o S fuel) x (st.setFlag b k ⟨.inProgress, Res.init o⟩) with
        | none => simp [hv] at h
        | some p =>
          obtain ⟨v, st2⟩ := p
          obtain ⟨i2, l2, c2⟩ := evalV_plain o S _ (evaluateEnum_sound o S hS fuel) x hpl _ st2 v (hi0.setFlag _ _ _) hv
          have g2 := g1.of_flags l2.flags
          have lat0 : FlagsLater (st.setFlag b k ⟨.inProgress, Res.init o⟩) st2 := ⟨fun b' k' d hd _ => by rw [l2.flags]; exact hd, l2.keep⟩
          have lat : ∀ c', FlagsLater st (st2.setFlag b k c') := by
            intro c'
            refine ⟨fun b' k' d hd hds => ?_, fun e' k' d hd hds => l2.keep e' k' d hd hds⟩
            have hne : ¬ (b' = b ∧ k' = k) := by rintro ⟨rfl, rfl⟩; exact hnc d hd hds
            rw [setFlag_other _ _ _ _ _ _ hne, l2.flags, setFlag_other _ _ _ _ _ _ hne]
            exact hd
          simp only [hv] at h
          cases ho : v.out with
          | ok =>
            simp only [ho, Option.some.injEq, Prod.mk.injEq] at h
            obtain ⟨rfl, rfl⟩ := h
            obtain ⟨w, hw, hr⟩ := c2 ho
            exact ⟨i2.setFlag _ _ _, g2.set _ _ _ fun _ => ⟨w, .flag hm1 hm2 hw, hr⟩, lat _, fun _ => ⟨_, setFlag_same _ _ _ _, rfl⟩⟩
          | err =>
            simp only [ho, Option.some.injEq, Prod.mk.injEq] at h
            obtain ⟨rfl, rfl⟩ := h
            exact ⟨i2.setFlag _ _ _, g2.set _ _ _ (by simp), lat _, by simp⟩
          | panic =>
            simp only [ho, Option.some.injEq, Prod.mk.injEq] at h
            obtain ⟨rfl, rfl⟩ := h
            exact ⟨i2, g2, (FlagsLater.set b k _ hnc).trans lat0, by simp⟩

theorem flagLoop_sound (o : FloatOps F) (S : ItemSchema) (hS : S.all VEx.plain) (hroom : S.HasRoom) (fuel b : Nat)
    (m : List (Option VEx)) (hm : S.bitmasks[b]? = some m) (xs pre : List (Option VEx)) (hpre : m = pre ++ xs)
    (st st' : VState F) (hi : ItemsGood o S st) (hg : FlagsGood o S st)
    (hdone : ∀ k, k < pre.length → ∃ c, st.flags b k = some c ∧ c.status = .complete)
    (h : flagLoop o S fuel b pre.length xs st = some (.ok, st')) :
    ItemsGood o S st' ∧ FlagsGood o S st' ∧ FlagsLater st st' ∧ ∀ k, k < m.length → ∃ c, st'.flags b k = some c ∧ c.status = .complete := by
  induction xs generalizing pre st with
  | nil =>
    simp only [flagLoop, Option.some.injEq, Prod.mk.injEq, true_and] at h
    subst h
    subst hpre
    exact ⟨hi, hg, .refl _, fun k hk => hdone k (by simpa using hk)⟩
  | cons x xs ih =>
    have hx : member? S.bitmasks b pre.length = some x := member?_mk hm (by rw [hpre]; simp)
    rw [flagLoop] at h
    cases he : evaluateFlag o S fuel b pre.length x st with
    | none => simp [he] at h
    | some p =>
      obtain ⟨o1, st1⟩ := p
      obtain ⟨i1, g1, l1, c1⟩ := evaluateFlag_sound o S hS hroom fuel b pre.length x hx st st1 o1 hi hg (fun j hj => hdone j (by omega)) he
      simp only [he] at h
      cases o1 with
      | ok =>
        obtain ⟨i2, g2, l2, c2⟩ := ih (pre ++ [x]) (by simp [hpre]) st1 i1 g1 (by
          intro k hk
          rw [List.length_append, List.length_singleton] at hk
          by_cases hkk : k = pre.length
          · subst hkk; exact c1 rfl
          · obtain ⟨c, hc, hs⟩ := hdone k (by omega)
            exact ⟨c, l1.keep _ _ _ hc hs, hs⟩) (by simpa using h)
        exact ⟨i2, g2, l1.trans l2, c2⟩
      | err => simp at h
      | panic => simp at h

theorem evaluateBitmasks_sound (o : FloatOps F) (S : ItemSchema) (hS : S.all VEx.plain) (hroom : S.HasRoom) (fuel : Nat) (bs : List Nat)
    (st st' : VState F) (hi : ItemsGood o S st) (hg : FlagsGood o S st) (h : evaluateBitmasks o S fuel bs st = some (.ok, st')) :
    ItemsGood o S st' ∧ FlagsGood o S st' ∧ FlagsLater st st' ∧
      ∀ b ∈ bs, ∀ k x, member? S.bitmasks b k = some x → ∃ c, st'.flags b k = some c ∧ c.status = .complete := by
  induction bs generalizing st with
  | nil =>
    simp only [evaluateBitmasks, Option.some.injEq, Prod.mk.injEq, true_and] at h
    subst h
    exact ⟨hi, hg, .refl _, by simp⟩
  | cons b bs ih =>
    rw [evaluateBitmasks] at h
    cases he : flagLoop o S fuel b 0 (S.bitmasks.getD b []) st with
    | none => simp only [he] at h; cases h
    | some p =>
      obtain ⟨o1, st1⟩ := p
      simp only [he] at h
      cases o1 with
      | err => simp at h
      | panic => simp at h
      | ok =>
        have key : ItemsGood o S st1 ∧ FlagsGood o S st1 ∧ FlagsLater st st1 ∧
            ∀ k x, member? S.bitmasks b k = some x → ∃ c, st1.flags b k = some c ∧ c.status = .complete := by
          cases hm : S.bitmasks[b]? with
          | none =>
            rw [List.getD_eq_getElem?_getD, hm] at he
            simp only [Option.getD_none, flagLoop, Option.some.injEq, Prod.mk.injEq, true_and] at he
            subst he
            refine ⟨hi, hg, .refl _, fun k x hx => ?_⟩
            obtain ⟨m, hm1, _⟩ := member?_eq hx
            rw [hm] at hm1; cases hm1
          | some m =>
            rw [List.getD_eq_getElem?_getD, hm] at he
            obtain ⟨i, g, l, c⟩ := flagLoop_sound o S hS hroom fuel b m hm m [] rfl st st1 hi hg (by simp) he
            refine ⟨i, g, l, fun k x hx => ?_⟩
            obtain ⟨m', hm1, hm2⟩ := member?_eq hx
            rw [hm] at hm1; cases hm1
            exact c k (List.getElem?_eq_some_iff.1 hm2).1
        obtain ⟨i1, g1, l1, c1⟩ := key
        obtain ⟨i2, g2, l2, c2⟩ := ih st1 i1 g1 h
        refine ⟨i2, g2, l1.trans l2, fun b' hb' k x hx => ?_⟩
        rcases List.mem_cons.1 hb' with rfl | hb'
        · obtain ⟨c, hc, hs⟩ := c1 k x hx
          exact ⟨c, l2.keep _ _ _ hc hs, hs⟩
        · exact c2 b' hb' k x hx

theorem start_good (o : FloatOps F) (S : ItemSchema) : ItemsGood o S (VState.start o S) ∧ FlagsGood o S (VState.start o S) := by
  refine ⟨⟨fun e k c h hs => ?_, fun e k h x hx => ?_⟩, ⟨fun e k c h hs => ?_, fun e k h x hx => ?_⟩⟩ <;> simp only [VState.start] at h
  · split at h <;> simp at h; subst h; simp at hs
  · simp [hx] at h
  · split at h <;> simp at h; subst h; simp at hs
  · simp [hx] at h

/-! ## The claims -/

/-- **C88** (partial).  A schema that is accepted has in the generated code the values that its text says, whatever the order in which the
enums and bitmasks are evaluated.  Expressions are sums, differences and products of numbers and constants, or a single enum item of any enum; what
is missing is arithmetic with enum items and any use of bitmask values (see below: both go wrong). -/
theorem C88_values_partial (o : FloatOps F) (S : ItemSchema) (hS : S.all VEx.plain) (hroom : S.HasRoom) (fuel : Nat) (es bs : List Nat)
    (st : VState F) (h : evaluateItems o S fuel es bs = some (.ok, st)) :
    (∀ e ∈ es, ∀ l, S.enums[e]? = some l → ∀ k, k < l.length → ∃ v, VMeans S (.item e k) v ∧ printedValue (st.items e k) = some (BitVec.ofInt 64 v)) ∧
    (∀ b ∈ bs, ∀ l, S.bitmasks[b]? = some l → ∀ k, k < l.length →
      ∃ v, VMeans S (.flag b k) v ∧ printedValue (st.flags b k) = some (BitVec.ofInt 64 v)) := by
  obtain ⟨hi, hf⟩ := start_good o S
  unfold evaluateItems at h
  cases he : evaluateEnums o S fuel es (VState.start o S) with
  | none => simp [he] at h
  | some p =>
    obtain ⟨o1, st1⟩ := p
    simp only [he] at h
    cases o1 with
    | err => simp at h
    | panic => simp at h
    | ok =>
      obtain ⟨g1, l1, c1⟩ := evaluateEnums_sound o S hS fuel es _ st1 hi he
      obtain ⟨i2, g2, l2, c2⟩ := evaluateBitmasks_sound o S hS hroom fuel bs st1 st g1 (hf.of_flags l1.flags) h
      refine ⟨fun e hE l hl k hk => ?_, fun b hB l hl k hk => ?_⟩
      · obtain ⟨c, hc, hs⟩ := c1 e hE k l[k] (member?_mk hl (List.getElem?_eq_getElem hk))
        have hc' := l2.items e k c hc hs
        obtain ⟨v, hv, hr⟩ := i2.val e k c hc' hs
        exact ⟨v, hv, by rw [hc']; simp [printedValue, hr, Res.int]⟩
      · obtain ⟨c, hc, hs⟩ := c2 b hB k l[k] (member?_mk hl (List.getElem?_eq_getElem hk))
        obtain ⟨v, hv, hr⟩ := g2.val b k c hc hs
        exact ⟨v, hv, by rw [hc]; simp [printedValue, hr, Res.int]⟩

/-- The values are determined by the schema. -/
theorem VMeans.unique {S : ItemSchema} {x : VEx} {v w : Int} (h : VMeans S x v) (h' : VMeans S x w) : v = w := by
  induction h generalizing w with
  | num => cases h'; rfl
  | paren _ ih => cases h' with | paren h => exact ih h
  | valueof _ ih => cases h' with | valueof h => exact ih h
  | add _ _ i1 i2 => cases h' with | add h1 h2 => rw [i1 h1, i2 h2]
  | sub _ _ i1 i2 => cases h' with | sub h1 h2 => rw [i1 h1, i2 h2]
  | mul _ _ i1 i2 => cases h' with | mul h1 h2 => rw [i1 h1, i2 h2]
  | item a b _ ih =>
    cases h' with
    | item a' b' h => rw [a] at a'; cases a'; rw [b] at b'; cases b'; exact ih h
    | itemFirst a' b' => rw [a] at a'; cases a'; rw [b] at b'; cases b'
    | itemNext a' b' => rw [a] at a'; cases a'; rw [b] at b'; cases b'
  | itemFirst a b =>
    cases h' with
    | item a' b' h => rw [a] at a'; cases a'; rw [b] at b'; cases b'
    | itemFirst a' b' => rfl
  | itemNext a b _ ih =>
    cases h' with
    | item a' b' h => rw [a] at a'; cases a'; rw [b] at b'; cases b'
    | itemNext a' b' h => rw [ih h]
  | flag a b _ ih =>
    cases h' with
    | flag a' b' h => rw [a] at a'; cases a'; rw [b] at b'; cases b'; exact ih h
    | flagFirst a' b' => rw [a] at a'; cases a'; rw [b] at b'; cases b'
    | flagNext a' b' => rw [a] at a'; cases a'; rw [b] at b'; cases b'
  | flagFirst a b =>
    cases h' with
    | flag a' b' h => rw [a] at a'; cases a'; rw [b] at b'; cases b'
    | flagFirst a' b' => rfl
  | flagNext a b _ h1 h2 ih =>
    cases h' with
    | flag a' b' h => rw [a] at a'; cases a'; rw [b] at b'; cases b'
    | flagNext a' b' h h1' h2' =>
      have := ih h
      subst this
      have hp := le_antisymm (h2 _ h1') (h2' _ h1)
      rw [hp]

/-! ## Schemas without references between items -/

/-- No expression is being evaluated, and those that are evaluated are integers. -/
def Calm (l : List (List (Option VEx))) (cells : Nat → Nat → Option (CState F)) : Prop :=
  ∀ e k c, cells e k = some c → (c.status = .complete ∧ c.res.ty = some .integer) ∨ (c.status = .notStarted ∧ ∃ x, member? l e k = some (some x))

theorem evaluateItem_ok (o : FloatOps F) (S : ItemSchema) (hS : S.all VEx.numeric) (ev : Nat → VState F → Option (Out × VState F)) (e k : Nat)
    (x : Option VEx) (hm : member? S.enums e k = some x) (st : VState F) (hc : Calm S.enums st.items)
    (hprev : ∀ j, k = j + 1 → ∃ c, st.items e j = some c ∧ c.status = .complete) :
    ∃ c, evaluateItem o S ev e k x st = some (.ok, st.setItem e k c) ∧ c.status = .complete ∧ c.res.ty = some .integer ∨
      evaluateItem o S ev e k x st = some (.ok, st) ∧ st.items e k = some c ∧ c.status = .complete := by
  obtain ⟨m, hm1, hm2⟩ := member?_eq hm
  unfold evaluateItem
  cases hi : st.items e k with
  | none =>
    cases k with
    | zero => exact ⟨_, .inl ⟨rfl, rfl, rfl⟩⟩
    | succ j =>
      obtain ⟨c, hj, hs⟩ := hprev j rfl
      rcases hc e j c hj with ⟨_, ht⟩ | ⟨hn, _⟩
      · simp only [hj, ht, if_true]
        exact ⟨_, .inl ⟨rfl, rfl, rfl⟩⟩
      · rw [hs] at hn; cases hn
  | some c =>
    rcases hc e k c hi with ⟨hs, ht⟩ | ⟨hs, y, hy⟩
    · refine ⟨c, .inr ⟨?_, rfl, hs⟩⟩
      cases x <;> simp [hs]
    · rw [hm] at hy
      cases hy
      have hn : y.numeric = true := hS m (List.mem_append_left _ (List.mem_of_getElem? hm1)) y (List.mem_of_getElem? hm2)
      obtain ⟨v, _, he⟩ := evalV_numeric o S ev y hn (st.setItem e k ⟨.inProgress, Res.init o⟩)
      refine ⟨⟨.complete, Res.int o (BitVec.ofInt 64 v)⟩, .inl ⟨?_, rfl, rfl⟩⟩
      simp only [hs, he]
      congr 2
      simp only [VState.setItem, VState.mk.injEq, and_true]
      funext e' k'
      split <;> rfl

theorem evaluateFlag_ok (o : FloatOps F) (S : ItemSchema) (hS : S.all VEx.numeric) (fuel e k : Nat)
    (x : Option VEx) (hm : member? S.bitmasks e k = some x) (st : VState F) (hc : Calm S.bitmasks st.flags)
    (hprev : ∀ j, k = j + 1 → ∃ c, st.flags e j = some c ∧ c.status = .complete) :
    ∃ c, evaluateFlag o S fuel e k x st = some (.ok, st.setFlag e k c) ∧ c.status = .complete ∧ c.res.ty = some .integer ∨
      evaluateFlag o S fuel e k x st = some (.ok, st) ∧ st.flags e k = some c ∧ c.status = .complete := by
  obtain ⟨m, hm1, hm2⟩ := member?_eq hm
  unfold evaluateFlag
  cases hi : st.flags e k with
  | none =>
    cases k with
    | zero => exact ⟨_, .inl ⟨rfl, rfl, rfl⟩⟩
    | succ j =>
      obtain ⟨c, hj, hs⟩ := hprev j rfl
      rcases hc e j c hj with ⟨_, ht⟩ | ⟨hn, _⟩
      · simp only [hj, ht, if_true]
        exact ⟨_, .inl ⟨rfl, rfl, rfl⟩⟩
      · rw [hs] at hn; cases hn
  | some c =>
    rcases hc e k c hi with ⟨hs, ht⟩ | ⟨hs, y, hy⟩
    · refine ⟨c, .inr ⟨?_, rfl, hs⟩⟩
      cases x <;> simp [hs]
    · rw [hm] at hy
      cases hy
      have hn : y.numeric = true := hS m (List.mem_append_right _ (List.mem_of_getElem? hm1)) y (List.mem_of_getElem? hm2)
      obtain ⟨v, _, he⟩ := evalV_numeric o S (evaluateEnum o S fuel) y hn (st.setFlag e k ⟨.inProgress, Res.init o⟩)
      refine ⟨⟨.complete, Res.int o (BitVec.ofInt 64 v)⟩, .inl ⟨?_, rfl, rfl⟩⟩
      simp only [hs, he]
      congr 2
      simp only [VState.setFlag, VState.mk.injEq, true_and]
      funext e' k'
      split <;> rfl

theorem Calm.setItem {l : List (List (Option VEx))} {st : VState F} (h : Calm l st.items) (e k : Nat) (c : CState F) (hs : c.status = .complete)
    (ht : c.res.ty = some .integer) : Calm l (st.setItem e k c).items := by
  intro e' k' d hd
  by_cases he : e' = e ∧ k' = k
  · obtain ⟨rfl, rfl⟩ := he; rw [setItem_same] at hd; cases hd; exact .inl ⟨hs, ht⟩
  · rw [setItem_other _ _ _ _ _ _ he] at hd; exact h e' k' d hd

theorem Calm.setFlag {l : List (List (Option VEx))} {st : VState F} (h : Calm l st.flags) (e k : Nat) (c : CState F) (hs : c.status = .complete)
    (ht : c.res.ty = some .integer) : Calm l (st.setFlag e k c).flags := by
  intro e' k' d hd
  by_cases he : e' = e ∧ k' = k
  · obtain ⟨rfl, rfl⟩ := he; rw [setFlag_same] at hd; cases hd; exact .inl ⟨hs, ht⟩
  · rw [setFlag_other _ _ _ _ _ _ he] at hd; exact h e' k' d hd

theorem enumItemsLoop_ok (o : FloatOps F) (S : ItemSchema) (hS : S.all VEx.numeric) (ev : Nat → VState F → Option (Out × VState F)) (e : Nat)
    (m : List (Option VEx)) (hm : S.enums[e]? = some m) (xs pre : List (Option VEx)) (hpre : m = pre ++ xs) (st : VState F)
    (hc : Calm S.enums st.items) (hlast : ∀ j, pre.length = j + 1 → ∃ c, st.items e j = some c ∧ c.status = .complete) :
    ∃ st', enumItemsLoop o S ev e pre.length xs st = some (.ok, st') ∧ Calm S.enums st'.items ∧ st'.flags = st.flags := by
  induction xs generalizing pre st with
  | nil => exact ⟨st, rfl, hc, rfl⟩
  | cons x xs ih =>
    have hx : member? S.enums e pre.length = some x := member?_mk hm (by rw [hpre]; simp)
    have hl : (pre ++ [x]).length = pre.length + 1 := by simp
    obtain ⟨c, ⟨he, hs, ht⟩ | ⟨he, hi, hs⟩⟩ := evaluateItem_ok o S hS ev e pre.length x hx st hc hlast
    · obtain ⟨st', h1, h2, h3⟩ := ih (pre ++ [x]) (by simp [hpre]) (st.setItem e pre.length c) (hc.setItem _ _ _ hs ht) (by
        intro j hj
        have : j = pre.length := by omega
        subst this
        exact ⟨c, setItem_same _ _ _ _, hs⟩)
      exact ⟨st', by rw [enumItemsLoop, he]; rw [hl] at h1; exact h1, h2, h3⟩
    · obtain ⟨st', h1, h2, h3⟩ := ih (pre ++ [x]) (by simp [hpre]) st hc (by
        intro j hj
        have : j = pre.length := by omega
        subst this
        exact ⟨c, hi, hs⟩)
      exact ⟨st', by rw [enumItemsLoop, he]; rw [hl] at h1; exact h1, h2, h3⟩

theorem flagLoop_ok (o : FloatOps F) (S : ItemSchema) (hS : S.all VEx.numeric) (fuel e : Nat)
    (m : List (Option VEx)) (hm : S.bitmasks[e]? = some m) (xs pre : List (Option VEx)) (hpre : m = pre ++ xs) (st : VState F)
    (hc : Calm S.bitmasks st.flags) (hlast : ∀ j, pre.length = j + 1 → ∃ c, st.flags e j = some c ∧ c.status = .complete) :
    ∃ st', flagLoop o S fuel e pre.length xs st = some (.ok, st') ∧ Calm S.bitmasks st'.flags := by
  induction xs generalizing pre st with
  | nil => exact ⟨st, rfl, hc⟩
  | cons x xs ih =>
    have hx : member? S.bitmasks e pre.length = some x := member?_mk hm (by rw [hpre]; simp)
    have hl : (pre ++ [x]).length = pre.length + 1 := by simp
    obtain ⟨c, ⟨he, hs, ht⟩ | ⟨he, hi, hs⟩⟩ := evaluateFlag_ok o S hS fuel e pre.length x hx st hc hlast
    · obtain ⟨st', h1, h2⟩ := ih (pre ++ [x]) (by simp [hpre]) (st.setFlag e pre.length c) (hc.setFlag _ _ _ hs ht) (by
        intro j hj
        have : j = pre.length := by omega
        subst this
        exact ⟨c, setFlag_same _ _ _ _, hs⟩)
      exact ⟨st', by rw [flagLoop, he]; rw [hl] at h1; exact h1, h2⟩
    · obtain ⟨st', h1, h2⟩ := ih (pre ++ [x]) (by simp [hpre]) st hc (by
        intro j hj
        have : j = pre.length := by omega
        subst this
        exact ⟨c, hi, hs⟩)
      exact ⟨st', by rw [flagLoop, he]; rw [hl] at h1; exact h1, h2⟩

/-- **C88** (partial).  A schema whose items are sums, differences and products of numbers and constants is accepted, whatever the order of evaluation:
with `C88_values_partial` its items have the values that its text says.  What is missing are references between items. -/
theorem C88_accepts_partial (o : FloatOps F) (S : ItemSchema) (hS : S.all VEx.numeric) (fuel : Nat) (hf : 0 < fuel) (es bs : List Nat) :
    ∃ st, evaluateItems o S fuel es bs = some (.ok, st) := by
  have calm : ∀ l : List (List (Option VEx)), Calm (F := F) l fun e k => match member? l e k with
      | some (some _) => some ⟨.notStarted, Res.init o⟩
      | _ => Option.none := by
    intro l e k c h
    dsimp only at h
    split at h
    · rename_i x hx
      cases h
      exact .inr ⟨rfl, x, hx⟩
    · cases h
  have enums : ∀ (es : List Nat) (st : VState F), Calm S.enums st.items →
      ∃ st', evaluateEnums o S fuel es st = some (.ok, st') ∧ Calm S.enums st'.items ∧ st'.flags = st.flags := by
    intro es
    induction es with
    | nil => intro st h; exact ⟨st, rfl, h, rfl⟩
    | cons e es ih =>
      intro st h
      obtain ⟨n, rfl⟩ : ∃ n, fuel = n + 1 := ⟨fuel - 1, by omega⟩
      have : ∃ st1, evaluateEnum o S (n + 1) e st = some (.ok, st1) ∧ Calm S.enums st1.items ∧ st1.flags = st.flags := by
        rw [evaluateEnum, List.getD_eq_getElem?_getD]
        cases hm : S.enums[e]? with
        | none => exact ⟨st, rfl, h, rfl⟩
        | some m => exact enumItemsLoop_ok o S hS _ e m hm m [] rfl st h (by simp)
      obtain ⟨st1, h1, h2, h3⟩ := this
      obtain ⟨st2, h4, h5, h6⟩ := ih st1 h2
      exact ⟨st2, by rw [evaluateEnums, h1]; exact h4, h5, h6.trans h3⟩
  have bitmasks : ∀ (bs : List Nat) (st : VState F), Calm S.bitmasks st.flags → ∃ st', evaluateBitmasks o S fuel bs st = some (.ok, st') := by
    intro bs
    induction bs with
    | nil => intro st h; exact ⟨st, rfl⟩
    | cons b bs ih =>
      intro st h
      have : ∃ st1, flagLoop o S fuel b 0 (S.bitmasks.getD b []) st = some (.ok, st1) ∧ Calm S.bitmasks st1.flags := by
        rw [List.getD_eq_getElem?_getD]
        cases hm : S.bitmasks[b]? with
        | none => exact ⟨st, rfl, h⟩
        | some m => exact flagLoop_ok o S hS fuel b m hm m [] rfl st h (by simp)
      obtain ⟨st1, h1, h2⟩ := this
      obtain ⟨st2, h3⟩ := ih st1 h2
      exact ⟨st2, by rw [evaluateBitmasks, h1]; exact h3⟩
  obtain ⟨st1, h1, _, h3⟩ := enums es (VState.start o S) (calm S.enums)
  obtain ⟨st2, h4⟩ := bitmasks bs st1 (by rw [h3]; exact calm S.bitmasks)
  exact ⟨st2, by rw [evaluateItems, h1]; exact h4⟩

/-! ## What goes wrong -/

/-- **C88 is violated** by arithmetic with an enum item: whatever the item and the number are, the result of `+` is 2, that of `-` is 0 and
that of `*` is 1, without an error. -/
theorem C88_violated_sum (o : FloatOps F) (S : ItemSchema) (ev : Nat → VState F → Option (Out × VState F)) (e k : Nat) (n v : BitVec 64) (st : VState F)
    (hm : (member? S.enums e k).isSome = true) (hc : st.items e k = some ⟨.complete, Res.int o v⟩) :
    evalV o S ev (.bin .add (.item e k) (.num n)) st = some (⟨.ok, Res.int o 2#64, false⟩, st) ∧
    evalV o S ev (.bin .sub (.item e k) (.num n)) st = some (⟨.ok, Res.int o 0#64, false⟩, st) ∧
    evalV o S ev (.bin .mul (.item e k) (.num n)) st = some (⟨.ok, Res.int o 1#64, false⟩, st) := by
  obtain ⟨x, hx⟩ := Option.isSome_iff_exists.1 hm
  have hmix : mixTypes ⟨.integer, Option.none⟩ ⟨.integer, Option.none⟩ = .ok ⟨.integer, Option.none⟩ := rfl
  refine ⟨?_, ?_, ?_⟩ <;>
    simp [evalV, dotItem, hx, hc, evalBin, evalArith, Res.int, Res.init, hmix, intArith]

/-- Operations on floating point numbers, for examples. -/
def unitOps : FloatOps Unit := ⟨(), (), fun _ _ => (), fun _ _ => (), fun _ _ => (), fun _ _ => (), fun _ => (), fun _ _ => false, fun _ _ => false⟩

/-- The printed value of an item after an evaluation that ends well. -/
def runItem (S : ItemSchema) (es bs : List Nat) (e k : Nat) : Option (Out × Option (BitVec 64)) :=
  (evaluateItems unitOps S 5 es bs).map fun r => (r.1, printedValue (r.2.items e k))

/-- `enum A { X = 5 }; enum B { Y = A.X + 1 };`: `Y` is 2 in the generated code, and 6 in the schema. -/
theorem C88_violated_sum_case :
    let S : ItemSchema := ⟨[[some (.num 5#64)], [some (.bin .add (.item 0 0) (.num 1#64))]], []⟩
    VMeans S (.item 1 0) 6 ∧ runItem S [0, 1] [] 1 0 = some (.ok, some 2#64) ∧ runItem S [1, 0] [] 1 0 = some (.ok, some 2#64) := by
  refine ⟨?_, by decide +kernel, by decide +kernel⟩
  exact .item (l := [_]) rfl rfl (.add (v := 5) (w := 1) (.item (l := [_]) rfl rfl (.num 5#64)) (.num 1#64))

/-- **C88 is violated** by enum items written with bitmask values: `bitmask P { R = 4 }; enum E { A = valueof(P.R) };` makes `A` 0 in the
generated code; and when `R` has no expression the program panics. -/
theorem C88_violated_flag :
    let S : ItemSchema := ⟨[[some (.valueof (.flag 0 0))]], [[some (.num 4#64)]]⟩
    let T : ItemSchema := ⟨[[some (.valueof (.flag 0 0))]], [[Option.none]]⟩
    VMeans S (.item 0 0) 4 ∧ runItem S [0] [0] 0 0 = some (.ok, some 0#64) ∧
    VMeans T (.item 0 0) 1 ∧ (runItem T [0] [0] 0 0).map Prod.fst = some .panic := by
  refine ⟨?_, by decide +kernel, ?_, by decide +kernel⟩
  · exact .item (l := [_]) rfl rfl (.valueof (.flag (l := [_]) rfl rfl (.num 4#64)))
  · exact .item (l := [_]) rfl rfl (.valueof (.flagFirst (l := [_]) rfl rfl))

/-- **C88 is violated** by references to items without expression: `enum A { X }; enum B { Y = A.X };` is accepted, with `Y` 0, when `A` comes first
in the iteration over a Go map, and makes the program panic when `B` comes first. -/
theorem C88_violated_order :
    let S : ItemSchema := ⟨[[Option.none], [some (.item 0 0)]], []⟩
    VMeans S (.item 1 0) 0 ∧ runItem S [0, 1] [] 1 0 = some (.ok, some 0#64) ∧ (runItem S [1, 0] [] 1 0).map Prod.fst = some .panic := by
  refine ⟨?_, by decide +kernel, by decide +kernel⟩
  exact .item (l := [_]) rfl rfl (.itemFirst (l := [_]) rfl rfl)

/-- **C88 is violated** by forward references within an enum: `enum E { A = E.B, B = 1 };` is refused, although `A` is 1; the other order of the items
is accepted. -/
theorem C88_violated_forward :
    let S : ItemSchema := ⟨[[some (.item 0 1), some (.num 1#64)]], []⟩
    let T : ItemSchema := ⟨[[some (.num 1#64), some (.item 0 0)]], []⟩
    VMeans S (.item 0 0) 1 ∧ (runItem S [0] [] 0 0).map Prod.fst = some .err ∧ runItem T [0] [] 0 1 = some (.ok, some 1#64) := by
  refine ⟨?_, by decide +kernel, by decide +kernel⟩
  exact .item (l := [_, _]) rfl rfl (.item (l := [_, _]) rfl rfl (.num 1#64))

/-! ## Examples -/

/-- `enum A { X = B.Y, Z }; enum B { V, Y = 3 + 4 }; bitmask P { R = A.Z, W };` -/
def itemsExample : ItemSchema :=
  ⟨[[some (.item 1 1), Option.none], [Option.none, some (.bin .add (.num 3#64) (.num 4#64))]], [[some (.paren (.item 0 1)), Option.none]]⟩

example : itemsExample.all VEx.plain := by
  intro l hl x hx
  simp [itemsExample] at hl
  rcases hl with rfl | rfl | rfl <;> simp at hx <;> subst hx <;> rfl

example : runItem itemsExample [0, 1] [0] 0 1 = some (.ok, some 8#64) := by decide +kernel

example : runItem itemsExample [1, 0] [0] 0 1 = some (.ok, some 8#64) := by decide +kernel

example : (evaluateItems unitOps itemsExample 5 [0, 1] [0]).map (fun r => printedValue (r.2.flags 0 1)) = some (some 16#64) := by decide +kernel

/-- The hypothesis on room for one more bit is met: the value before `W` is 8. -/
example : itemsExample.HasRoom := by
  intro b k l hb hl v hv
  have h8 : VMeans itemsExample (.flag 0 0) 8 :=
    .flag (l := [_, _]) rfl rfl (.paren (.itemNext (l := [_, _]) (v := 7) rfl rfl (.item (l := [_, _]) rfl rfl
      (.item (l := [_, _]) rfl rfl (.add (v := 3) (w := 4) (.num 3#64) (.num 4#64))))))
  rcases b with _ | b
  · cases hb
    rcases k with _ | k
    · rw [hv.unique h8]; norm_num
    · simp at hl
  · simp [itemsExample] at hb

/-- A circular definition is refused. -/
example : (runItem ⟨[[some (.item 1 0)], [some (.item 0 0)]], []⟩ [0, 1] [] 0 0).map Prod.fst = some .err := by decide +kernel

example : ItemSchema.all ⟨[[some (.num 5#64), Option.none]], [[Option.none, some (.bin .mul (.num 2#64) (.num 8#64))]]⟩ VEx.numeric := by
  intro l hl x hx
  simp at hl
  rcases hl with rfl | rfl <;> simp at hx <;> subst hx <;> rfl

end Verif
