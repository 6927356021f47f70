import Verif.WireNum
import Verif.Array
import Mathlib.Tactic.Linarith

/-!
# Delta packing and the wire format

The sequences that the packing context sees and the bits it writes, compared with `Wire.chunk`.
-/

namespace Verif.Wire

/-- The traits of whatever type an occurrence has; reading is not used. -/
def occTr : Traits Occ where
  isConstant := false
  zero := ⟨.bool, false⟩
  bitSizeOf o := o.k.traits.bitSizeOf o.v
  read := pure ⟨.bool, false⟩
  write o := o.k.traits.write o.v
  asU64 o := o.k.traits.asU64 o.v
  fromU64 _ := ⟨.bool, false⟩

/-- Occurrences of integer types . -/
def Occ.Fine (o : Occ) : Prop := o.k.isDelta = true ∧ Narrow o.k

/-- The image in 64 bits. -/
def img (o : Occ) : Nat := (o.num % 2 ^ 64).toNat

theorem toNat_of_signed {w : Nat} (hw : w ≤ 64) (x : BitVec w) : (x.signExtend 64).toNat = (x.toInt % 2 ^ 64).toNat := by
  rw [← BitVec.toInt_signExtend_of_le (x := x) hw, BitVec.toInt_eq_toNat_cond]
  have := (x.signExtend 64).isLt
  split <;> omega

theorem toNat_of_unsigned {w : Nat} (hw : w ≤ 64) (x : BitVec w) :
    (x.setWidth 64).toNat = ((x.toNat : Int) % 2 ^ 64).toNat := by
  rw [toNat_setWidth64 hw]
  have := x.isLt
  have : (2 : Nat) ^ w ≤ 2 ^ 64 := Nat.pow_le_pow_right (by omega) hw
  omega

theorem img_eq : ∀ o : Occ, o.Fine → (occTr.asU64 o).toNat = img o
  | ⟨.varint, (x : BitVec 64)⟩, _ => by
    have := toNat_of_signed (Nat.le_refl 64) x
    rwa [BitVec.signExtend_eq] at this
  | ⟨.varint64, (x : BitVec 64)⟩, _ => by
    have := toNat_of_signed (Nat.le_refl 64) x
    rwa [BitVec.signExtend_eq] at this
  | ⟨.varint16, (x : BitVec 16)⟩, _ => toNat_of_signed (by omega) x
  | ⟨.varint32, (x : BitVec 32)⟩, _ => toNat_of_signed (by omega) x
  | ⟨.varuint, (x : BitVec 64)⟩, _ => by
    have := toNat_of_unsigned (Nat.le_refl 64) x
    rwa [BitVec.setWidth_eq] at this
  | ⟨.varuint64, (x : BitVec 64)⟩, _ => by
    have := toNat_of_unsigned (Nat.le_refl 64) x
    rwa [BitVec.setWidth_eq] at this
  | ⟨.varsize, (x : BitVec 64)⟩, _ => by
    have := toNat_of_unsigned (Nat.le_refl 64) x
    rwa [BitVec.setWidth_eq] at this
  | ⟨.varuint16, (x : BitVec 16)⟩, _ => toNat_of_unsigned (by omega) x
  | ⟨.varuint32, (x : BitVec 32)⟩, _ => toNat_of_unsigned (by omega) x
  | ⟨.bits w n, (x : BitVec w)⟩, h => toNat_of_unsigned h.2 x
  | ⟨.sbits w n, (x : BitVec w)⟩, h => toNat_of_signed h.2 x
  | ⟨.bool, _⟩, h => by simp [Occ.Fine, Elem.isDelta] at h
  | ⟨.string, _⟩, h => by simp [Occ.Fine, Elem.isDelta] at h
  | ⟨.bytes, _⟩, h => by simp [Occ.Fine, Elem.isDelta] at h
  | ⟨.extern, _⟩, h => by simp [Occ.Fine, Elem.isDelta] at h
  | ⟨.float16, _⟩, h => by simp [Occ.Fine, Elem.isDelta] at h
  | ⟨.float32, _⟩, h => by simp [Occ.Fine, Elem.isDelta] at h
  | ⟨.float64, _⟩, h => by simp [Occ.Fine, Elem.isDelta] at h

theorem images_eq (os : List Occ) (h : ∀ o ∈ os, o.Fine) : occTr.images os = os.map img := by
  unfold Traits.images
  exact List.map_congr_left fun o ho => img_eq o (h o ho)

/-- The difference of two images. -/
theorem img_sub {n : Nat} (hn : n ≤ 64) {o p : Occ} (ho : o.Fine) (hp : p.Fine) :
    natBits n (occTr.asU64 o - occTr.asU64 p).toNat = twos n (o.num - p.num) := by
  unfold twos
  rw [msb_eq]
  apply natBits_congr
  rw [BitVec.toNat_sub, img_eq o ho, img_eq p hp]
  unfold img
  have hd : ((2 : Int) ^ n) ∣ 2 ^ 64 := pow_dvd_pow 2 hn
  have hd' : ((2 : Nat) ^ n) ∣ 2 ^ 64 := pow_dvd_pow 2 hn
  rw [Nat.mod_mod_of_dvd _ hd']
  have h1 := Int.toNat_of_nonneg (Int.emod_nonneg o.num (b := 2 ^ 64) (by norm_num))
  have h2 := Int.toNat_of_nonneg (Int.emod_nonneg p.num (b := 2 ^ 64) (by norm_num))
  have h2' : (p.num % 2 ^ 64).toNat < 2 ^ 64 := by
    have := Int.emod_lt_of_pos p.num (b := 2 ^ 64) (by norm_num)
    omega
  have h3 := Int.toNat_of_nonneg (Int.emod_nonneg (o.num - p.num) (b := 2 ^ n) (by positivity))
  have : (((2 ^ 64 - (p.num % 2 ^ 64).toNat + (o.num % 2 ^ 64).toNat) % 2 ^ n : Nat) : Int) =
      (((o.num - p.num) % 2 ^ n).toNat % 2 ^ n : Nat) := by
    rw [Int.natCast_mod, Int.natCast_mod, Nat.cast_add, Nat.cast_sub (Nat.le_of_lt h2'), h1, h2, h3]
    push_cast
    rw [Int.emod_emod]
    obtain ⟨q, hq⟩ := hd
    have e1 := Int.emod_add_mul_ediv o.num (2 ^ 64)
    have e2 := Int.emod_add_mul_ediv p.num (2 ^ 64)
    have : (2 ^ 64 - p.num % 2 ^ 64 + o.num % 2 ^ 64 : Int) =
        o.num - p.num + 2 ^ n * (q * (1 + p.num / 2 ^ 64 - o.num / 2 ^ 64)) := by
      rw [← mul_assoc, ← hq]
      linarith
    norm_num at this ⊢
    rw [this, Int.add_mul_emod_self_left]
  exact_mod_cast this

/-! ## What the code decides -/

/-- The size the code computes for a value; not always the number of bits it writes. -/
def reported (o : Occ) : Nat := o.k.traits.bitSizeOf o.v

/-- The decision of the packing context: distances between the 64-bit images, reported sizes. -/
def goPlan : List Occ → Plan
  | [] => none
  | o :: os =>
    let d := spread (img o) (os.map img)
    if d ≤ 62 ∧ 6 + reported o + os.length * Verif.deltaBits d < ((o :: os).map reported).sum then some d else none

def goDec : Decide := fun os => some (goPlan os)

theorem deltaBits_eq (d : Nat) : Verif.deltaBits d = deltaBits d := by
  unfold Verif.deltaBits deltaBits
  split <;> split <;> omega

theorem pays_iff (o : Occ) (os : List Occ) (h : ∀ x ∈ o :: os, x.Fine) :
    PackingPays occTr o os ↔ goPlan (o :: os) = some (spread (img o) (os.map img)) := by
  unfold PackingPays goPlan
  rw [images_eq os fun x hx => h x (by simp [hx]), img_eq o (h o (by simp))]
  dsimp only
  have hr : occTr.bitSizeOf = reported := rfl
  rw [hr]
  constructor
  · rintro ⟨h1, h2⟩
    rw [if_pos ⟨h1, by omega⟩]
  · intro hs
    split at hs
    · rename_i hc
      exact ⟨hc.1, by omega⟩
    · cases hs

theorem goPlan_cons {o : Occ} {os : List Occ} {d : Nat} (h : goPlan (o :: os) = some d) :
    d = spread (img o) (os.map img) ∧ d ≤ 62 := by
  unfold goPlan at h
  dsimp only at h
  split at h
  · rename_i hc
    injection h with h
    rw [← h]
    exact ⟨rfl, hc.1⟩
  · cases h

/-- The context after the first `j` of `os` were written. -/
def After (os : List Occ) (j : Nat) (c : DCtx) : Prop :=
  (j = 0 ∧ c = DCtx.initAll occTr os) ∨
  (1 ≤ j ∧ c.started = true ∧ c.isPacked = (goPlan os).isSome ∧ ∀ d, goPlan os = some d → c.maxBit = d ∧
    ∃ p, os[j - 1]? = some p ∧ c.prev = some (occTr.asU64 p))

theorem chain_adjacent {m : Nat} : ∀ {p : Nat} {xs : List Nat}, Chain m p xs → ∀ {j a b : Nat},
    (p :: xs)[j]? = some a → (p :: xs)[j + 1]? = some b → dist b a < 2 ^ m
  | _, [], _, j, a, b, h1, h2 => by simp at h2
  | _, x :: xs, ⟨h, _⟩, 0, a, b, h1, h2 => by
    simp at h1 h2
    subst h1 h2
    exact h
  | _, x :: xs, ⟨_, h⟩, j + 1, a, b, h1, h2 => chain_adjacent h (j := j) (by simpa using h1) (by simpa using h2)

/-- One element of a sequence. -/
theorem chunk_writes {os : List Occ} (hf : ∀ o ∈ os, o.Fine) {j : Nat} {c : DCtx} (hc : After os j c) {o : Occ}
    (ho : os[j]? = some o) {out : List Bool} (hout : chunk goDec os j = some out) (s : List Bool) :
    ∃ c', WM.run (DCtx.write occTr o c) s = ((.ok (), c'), s ++ out) ∧ After os (j + 1) c' := by
  have hof : o.Fine := hf o (List.mem_of_getElem? ho)
  unfold chunk at hout
  rw [ho] at hout
  simp only [Option.bind_eq_bind, Option.bind_some] at hout
  obtain ⟨b, hb, hout'⟩ := Option.bind_eq_some_iff.mp hout
  clear hout
  rename' hout' => hout
  simp only [goDec, Option.bind_some] at hout
  have hun : ∀ (c : DCtx) (s : List Bool),
      WM.run (DCtx.writeUnpacked occTr o c) s = ((.ok (), { c with prev := some (occTr.asU64 o) }), s ++ b) := by
    intro c s
    have h1 := scalar_trait o.k hof.2 o.v hb s
    unfold DCtx.writeUnpacked
    rw [WM.run_bind]
    unfold Writes wrun at h1
    change WM.run (ExceptT.run (occTr.write o)) s = _ at h1
    rw [h1]; rfl
  rcases hc with ⟨rfl, rfl⟩ | ⟨hj, hst, hpk, hd⟩
  · obtain ⟨o', os, rfl⟩ : ∃ o' os', os = o' :: os' := by
      cases os with
      | nil => simp at ho
      | cons a as => exact ⟨a, as, rfl⟩
    obtain rfl : o' = o := by simpa using ho
    obtain ⟨_, _, _, h4, _, _⟩ := initAll_spec occTr o' os
    obtain ⟨g1, g2, g3⟩ := finish_initAll occTr o' os
    dsimp only at g1 g2 g3
    rw [pays_iff o' os hf] at g2
    rw [images_eq os fun x hx => hf x (by simp [hx]), img_eq o' (hf o' (by simp))] at g3
    unfold DCtx.write
    rw [if_pos (c := (!(DCtx.initAll occTr (o' :: os)).started) = true) (by simp [h4])]
    dsimp only
    generalize DCtx.finishInit { DCtx.initAll occTr (o' :: os) with started := true } = c at g1 g2 g3 ⊢
    cases hg : goPlan (o' :: os) with
    | none =>
      have hpf : c.isPacked = false := by
        rw [← Bool.not_eq_true, g2, hg]; simp
      simp only [hg, Option.some.injEq] at hout
      refine ⟨{ c with prev := some (occTr.asU64 o') }, ?_, Or.inr ⟨by omega, g1, by rw [hg]; exact hpf, by
        intro d hd; rw [hg] at hd; cases hd⟩⟩
      rw [WM.run_bind]
      have hdw : WM.run (ExceptT.run c.writeDescriptor) s = (.ok (), s ++ [false]) := by
        unfold DCtx.writeDescriptor
        rw [hpf]
        rfl
      rw [hdw]
      dsimp only
      rw [hun, ← hout]
      simp
    | some d =>
      obtain ⟨hdd, hd62⟩ := goPlan_cons hg
      have hpt : c.isPacked = true := by rw [g2, hg, hdd]
      have hm : c.maxBit = d := by rw [g3 hpt, hdd]
      simp only [hg, Option.some.injEq] at hout
      refine ⟨{ c with prev := some (occTr.asU64 o') }, ?_, Or.inr ⟨by omega, g1, by rw [hg]; exact hpt, by
        intro d' hd'
        rw [hg] at hd'
        injection hd' with hd'
        exact ⟨by rw [← hd']; exact hm, o', by simp, rfl⟩⟩⟩
      rw [WM.run_bind]
      have hdw : WM.run (ExceptT.run c.writeDescriptor) s = (.ok (), s ++ (true :: natBits 6 d)) := by
        have : wrun c.writeDescriptor s = (.ok (), s ++ (true :: natBits 6 d)) := by
          unfold DCtx.writeDescriptor
          rw [hpt, wrun_bind, wrun_bool]
          dsimp only
          rw [if_pos rfl, wrun_bits, hm, BitVec.toNat_ofNat, Nat.mod_eq_of_lt (by omega)]
          simp
        exact this
      rw [hdw]
      dsimp only
      rw [hun, ← hout, msb_eq]
      simp
  · obtain ⟨j, rfl⟩ : ∃ i, j = i + 1 := ⟨j - 1, by omega⟩
    simp only [Nat.add_sub_cancel] at hd
    unfold DCtx.write
    rw [if_neg (c := (!c.started) = true) (by simp [hst])]
    cases hg : goPlan os with
    | none =>
      rw [hg] at hpk
      simp only [hg, Option.some.injEq] at hout
      rw [if_pos (c := (!c.isPacked) = true) (by rw [hpk]; rfl)]
      exact ⟨{ c with prev := some (occTr.asU64 o) }, by rw [hun, hout], Or.inr ⟨by omega, hst, by rw [hg]; exact hpk, by
        intro d hd; rw [hg] at hd; cases hd⟩⟩
    | some d =>
      rw [hg] at hpk
      obtain ⟨hm, p, hp, hprev⟩ := hd d hg
      have hpf : p.Fine := hf p (List.mem_of_getElem? hp)
      simp only [hg, hp, Option.bind_some, Option.some.injEq] at hout
      rw [if_neg (c := (!c.isPacked) = true) (by rw [hpk]; simp)]
      obtain ⟨o', os', rfl⟩ : ∃ o' os', os = o' :: os' := by
        cases os with
        | nil => simp at ho
        | cons a as => exact ⟨a, as, rfl⟩
      obtain ⟨hdd, hd62⟩ := goPlan_cons hg
      by_cases hpos : c.maxBit > 0
      · rw [if_pos hpos, hprev]
        dsimp only
        refine ⟨{ c with prev := some (occTr.asU64 o) }, ?_, Or.inr ⟨by omega, hst, by rw [hg]; exact hpk, by
          intro d' hd'
          rw [hg] at hd'
          injection hd' with hd'
          exact ⟨by rw [← hd']; exact hm, o, by simpa using ho, rfl⟩⟩⟩
        rw [WM.run_bind]
        have hw : WM.run (ExceptT.run (Wr.bits (occTr.asU64 o - occTr.asU64 p) ((c.maxBit + 1) % 256))) s =
            (.ok (), s ++ out) := by
          have := wrun_bits (occTr.asU64 o - occTr.asU64 p) ((c.maxBit + 1) % 256) s
          rw [Nat.mod_eq_of_lt (by omega), img_sub (by omega) hof hpf] at this
          rw [Nat.mod_eq_of_lt (by omega)]
          refine Eq.trans this ?_
          rw [← hout]
          unfold deltaBits
          rw [if_neg (by omega), hm]
        rw [hw]
        rfl
      · have hz : d = 0 := by omega
        rw [if_neg hpos]
        have hout' : out = [] := by
          rw [← hout, hz]
          rfl
        rw [hout', List.append_nil]
        refine ⟨c, rfl, Or.inr ⟨by omega, hst, by rw [hg]; exact hpk, ?_⟩⟩
        intro d' hd'
        rw [hg] at hd'
        injection hd' with hd'
        refine ⟨by rw [← hd']; exact hm, o, by simpa using ho, ?_⟩
        rw [hprev]
        have hch := chain_of_spread (m := 0) (p := img o') (xs := os'.map img) (by omega)
        have := chain_adjacent hch (j := j) (a := img p) (b := img o)
          (by rw [← List.map_cons, List.getElem?_map, hp]; rfl) (by rw [← List.map_cons, List.getElem?_map, ho]; rfl)
        rw [← img_eq o hof, ← img_eq p hpf] at this
        congr 1
        apply BitVec.eq_of_toNat_eq
        unfold dist at this
        omega

/-- What the code decides is sound: the deltas determine the sequence. -/
theorem goDec_sound : Sound goDec := by
  intro os d h
  injection h with h
  cases os with
  | nil => cases h
  | cons o os =>
    obtain ⟨h1, h2⟩ := goPlan_cons h
    refine ⟨h2, ?_⟩
    have hch := chain_of_spread (m := d) (p := img o) (xs := os.map img) (by omega)
    clear h h1
    induction os generalizing o with
    | nil => simp
    | cons b os ih =>
      rw [List.map_cons, List.map_cons, List.isChain_cons_cons]
      refine ⟨⟨(img b : Int) - img o, ?_, ?_⟩, ?_⟩
      · have := hch.1
        unfold dist at this
        generalize 2 ^ d = q at *
        omega
      · unfold img
        have h1 := Int.toNat_of_nonneg (Int.emod_nonneg o.num (b := 2 ^ 64) (by norm_num))
        have h2 := Int.toNat_of_nonneg (Int.emod_nonneg b.num (b := 2 ^ 64) (by norm_num))
        omega
      · have := ih b hch.2
        rwa [List.map_cons] at this

end Verif.Wire
