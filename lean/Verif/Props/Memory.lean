import Verif.Memory
import Verif.Schema
import Verif.Elem
import Verif.Props.Ints
import Verif.Props.Codec

/-!
# C98: the memory that decoding asks for
-/

namespace Verif

/-! ## The functions are those of the other properties -/

namespace MRd
variable {α β : Type}

theorem erase_pure (a : α) : (MRd.pure a).erase = Pure.pure a := rfl

theorem erase_bind (p : MRd α) (f : α → MRd β) : (p.bind f).erase = p.erase >>= fun a => (f a).erase := by
  show ExceptT.mk (RM.bind (RM.bind p _) _) = ExceptT.mk (RM.bind (RM.bind p _) _)
  rw [RM.bind_assoc, RM.bind_assoc]
  congr 2
  funext r
  obtain ⟨r, ns⟩ := r
  cases r with
  | error e => rfl
  | ok a =>
    show RM.bind (RM.bind (f a) _) _ = RM.bind (f a) _
    rw [RM.bind_assoc]
    rfl

theorem erase_lift (p : Rd α) : (MRd.lift p).erase = p := by
  show ExceptT.mk (RM.bind (RM.bind (ExceptT.run p) _) _) = p
  rw [RM.bind_assoc]
  exact RM.bind_pure _

theorem erase_make (n : Nat) : (MRd.make n).erase = Pure.pure () := rfl

/-- The results are those of the function without sizes. -/
theorem run_erase (p : MRd α) (s : RState) : rrun p.erase s = ((p.run s).1.1, (p.run s).2) := by
  show RM.run (RM.bind p _) s = _
  rw [RM.run_bind]
  rfl

theorem run_pure (a : α) (s : RState) : (MRd.pure a).run s = ((.ok a, []), s) := rfl
theorem run_make (n : Nat) (s : RState) : (MRd.make n).run s = ((.ok (), [n]), s) := rfl

theorem run_lift (p : Rd α) (s : RState) : (MRd.lift p).run s = (((rrun p s).1, []), (rrun p s).2) := by
  show RM.run (RM.bind (ExceptT.run p) _) s = _
  rw [RM.run_bind]
  rfl

theorem run_bind (p : MRd α) (f : α → MRd β) (s : RState) : (p.bind f).run s = match p.run s with
    | ((.ok a, ns), s') => ((((f a).run s').1.1, ns ++ ((f a).run s').1.2), ((f a).run s').2)
    | ((.error e, ns), s') => ((.error e, ns), s') := by
  show RM.run (RM.bind p _) s = _
  rw [RM.run_bind]
  unfold run
  generalize RM.run p s = q
  obtain ⟨⟨r, ns⟩, s'⟩ := q
  cases r with
  | error e => rfl
  | ok a =>
    show RM.run (RM.bind (f a) _) s' = _
    rw [RM.run_bind]
    rfl

end MRd

theorem Arr.plainReadM_erase {T : Type} (tr : Traits T) (read : MRd T) (h : read.erase = tr.read) (check : Bool) (n : Nat) :
    (Arr.plainReadM read check n).erase = Arr.plainRead tr check n := by
  induction n with
  | zero => rfl
  | succ n ih =>
    rw [Arr.plainReadM, Arr.plainRead, MRd.erase_bind, MRd.erase_lift]
    congr 1
    funext _
    rw [MRd.erase_bind, h]
    congr 1
    funext e
    rw [MRd.erase_bind, ih]
    rfl

theorem ObjArr.plainReadM_erase (m : Meth) (read : Val → MRd Val) (h : ∀ v, (read v).erase = m.unmarshal v) (check : Bool) (setp : Nat → Val → Val)
    (n : Nat) : ∀ i, (ObjArr.plainReadM m read check setp i n).erase = ObjArr.plainRead m check setp i n := by
  induction n with
  | zero => intro i; rfl
  | succ n ih =>
    intro i
    rw [ObjArr.plainReadM, ObjArr.plainRead, MRd.erase_bind, MRd.erase_lift]
    congr 1
    funext _
    rw [MRd.erase_bind, h]
    congr 1
    funext e
    rw [MRd.erase_bind, ih]
    rfl

/-- **C98**: the functions in this file are those of C15, C20, C21 and C24, with the sizes they ask for. -/
theorem C98_same : readStringM.erase = readString ∧ readBytesM.erase = readBytes ∧ readExternM.erase = readExtern ∧
    (∀ {T : Type} (tr : Traits T) (read : MRd T) (cfg : ArrCfg), read.erase = tr.read → (Arr.unmarshalM tr read cfg).erase = Arr.unmarshal tr cfg) ∧
    ∀ (m : Meth) (read : Val → MRd Val) (cfg : ArrCfg) (setp : Nat → Val → Val), (∀ v, (read v).erase = m.unmarshal v) →
      (ObjArr.unmarshalM m read cfg setp).erase = ObjArr.unmarshal m cfg setp := by
  refine ⟨?_, ?_, ?_, fun tr read cfg h => ?_, fun m read cfg setp h => ?_⟩
  · unfold readStringM readString
    rw [MRd.erase_bind, MRd.erase_lift]
    congr 1
    funext size
    rw [MRd.erase_bind, MRd.erase_make, pure_bind, MRd.erase_bind, MRd.erase_lift]
    conv_rhs => rw [← bind_pure (Rd.full size.toNat)]
    rfl
  · unfold readBytesM readBytes
    rw [MRd.erase_bind, MRd.erase_lift]
    congr 1
    funext size
    rw [MRd.erase_bind, MRd.erase_make, pure_bind, MRd.erase_bind, MRd.erase_lift]
    rfl
  · unfold readExternM readExtern
    rw [MRd.erase_bind, MRd.erase_lift]
    congr 1
    funext size
    rw [MRd.erase_bind, MRd.erase_make, pure_bind, MRd.erase_lift]
  · unfold Arr.unmarshalM Arr.unmarshal
    rw [MRd.erase_bind, MRd.erase_lift]
    congr 1
    funext size
    rw [MRd.erase_bind, MRd.erase_make, pure_bind]
    split
    · rw [MRd.erase_lift]
    · exact Arr.plainReadM_erase tr read h _ _
  · unfold ObjArr.unmarshalM ObjArr.unmarshal
    rw [MRd.erase_bind, MRd.erase_lift]
    congr 1
    funext size
    rw [MRd.erase_bind, MRd.erase_make, pure_bind]
    split
    · rfl
    · split
      · rw [MRd.erase_lift]
        cases m.create Ctx.empty <;> rfl
      · exact ObjArr.plainReadM_erase m read h _ _ _ _

/-! ## Reading only takes -/

theorem RM.run_rem_le {α : Type} (p : RM α) (s : RState) : (p.run s).2.rem.length ≤ s.rem.length := by
  induction p generalizing s with
  | pure a => exact Nat.le_refl _
  | op o k ih =>
    rw [RM.run]
    split
    · refine (ih _ _).trans ?_
      simp
    · refine (ih _ _).trans ?_
      cases o <;> simp only [ROp.fail]
      · split
        · simp
        · simpa using Nat.mod_le _ _
      · simp
      · simpa using Nat.mod_le _ _
      · simpa using Nat.mod_le _ _
      · exact Nat.le_refl _

/-- On success, eight times the sizes are at most `K` times the bits that were read. -/
def MRd.Frugal {α : Type} (K : Nat) (p : MRd α) : Prop :=
  ∀ (s : RState) (a : α) (ns : List Nat) (s' : RState), p.run s = ((.ok a, ns), s') → 8 * ns.sum + K * s'.rem.length ≤ K * s.rem.length

/-- On success at least one bit was read. -/
def MRd.Takes {α : Type} (p : MRd α) : Prop :=
  ∀ (s : RState) (a : α) (ns : List Nat) (s' : RState), p.run s = ((.ok a, ns), s') → s'.rem.length < s.rem.length

theorem MRd.bind_ok {α β : Type} {p : MRd α} {f : α → MRd β} {s s' : RState} {b : β} {ns : List Nat} (h : (p.bind f).run s = ((.ok b, ns), s')) :
    ∃ a n1 s1 n2, p.run s = ((.ok a, n1), s1) ∧ (f a).run s1 = ((.ok b, n2), s') ∧ ns = n1 ++ n2 := by
  rw [MRd.run_bind] at h
  cases hp : p.run s with
  | mk r s1 =>
    obtain ⟨r, n1⟩ := r
    rw [hp] at h
    cases r with
    | error e => simp at h
    | ok a =>
      simp only at h
      cases hf : (f a).run s1 with
      | mk q s2 =>
        obtain ⟨q, n2⟩ := q
        rw [hf] at h
        simp only [Prod.mk.injEq] at h
        obtain ⟨⟨rfl, rfl⟩, rfl⟩ := h
        exact ⟨a, n1, s1, n2, rfl, hf, rfl⟩

theorem MRd.lift_ok {α : Type} {p : Rd α} {s s' : RState} {a : α} {ns : List Nat} (h : (MRd.lift p).run s = ((.ok a, ns), s')) :
    ns = [] ∧ rrun p s = (.ok a, s') ∧ s'.rem.length ≤ s.rem.length := by
  rw [MRd.run_lift] at h
  simp only [Prod.mk.injEq] at h
  obtain ⟨⟨h1, rfl⟩, rfl⟩ := h
  exact ⟨rfl, Prod.ext h1 rfl, RM.run_rem_le _ _⟩

theorem MRd.Frugal.lift {α : Type} (K : Nat) (p : Rd α) : (MRd.lift p).Frugal K := by
  intro s a ns s' h
  obtain ⟨rfl, _, h2⟩ := MRd.lift_ok h
  simpa using Nat.mul_le_mul_left K h2

theorem MRd.Frugal.mono {α : Type} {K L : Nat} {p : MRd α} (hp : p.Frugal K) (h : K ≤ L) : p.Frugal L := by
  intro s a ns s' hr
  have h1 := hp s a ns s' hr
  have h2 : s'.rem.length ≤ s.rem.length := by
    have := MRd.run_erase p s
    rw [hr] at this
    have := RM.run_rem_le (ExceptT.run p.erase) s
    simp only [rrun] at *
    simp_all
  obtain ⟨d, rfl⟩ := Nat.exists_eq_add_of_le h
  have h3 := Nat.mul_le_mul_left d h2
  rw [Nat.add_mul, Nat.add_mul]
  omega

theorem varsize_takes {s s' : RState} {v : BitVec 64} (h : rrun readVarsize s = (.ok v, s')) : s'.rem.length + 8 ≤ s.rem.length ∧ v.toNat ≤ maxVarsize := by
  obtain ⟨input, pos⟩ := s
  rcases C08_varsize_total input pos with ⟨k, v', h1, _, h3, h4, h5⟩ | ⟨k, v', _, _, _, _, _, h4⟩ | ⟨st, h4, _⟩
  · rw [h4] at h
    cases h
    exact ⟨by simp; omega, h5⟩
  · rw [h4] at h; cases h
  · rw [h4] at h; cases h

theorem bitsBytes_length_eq (n : Nat) : ∀ l : List Bool, l.length = 8 * n → (bitsBytes l).length = n := by
  induction n with
  | zero => intro l hl; rw [bitsBytes, if_pos (by omega)]; rfl
  | succ n ih =>
    intro l hl
    rw [bitsBytes, if_neg (by omega), List.length_cons, ih _ (by rw [List.length_drop]; omega)]

theorem full_takes {n : Nat} {s s' : RState} {bs : List (BitVec 8)} (h : rrun (Rd.full n) s = (.ok bs, s')) :
    s'.rem.length + 8 * n = s.rem.length ∧ bs.length = n := by
  have h := (rrun_call (.full n) s).symm.trans h
  split at h
  · rename_i hn
    have hn : 8 * n ≤ s.rem.length := hn
    obtain ⟨h1, h2⟩ := Prod.mk.inj h
    have h1 := Except.ok.inj h1
    subst h1
    subst h2
    refine ⟨by simp [ROp.need]; omega, ?_⟩
    simp only [ROp.resp, ROp.need]
    exact bitsBytes_length_eq n _ (by rw [List.length_take]; omega)
  · cases h


/-! ## The claims -/

/-- **C98**: what a string, a byte buffer or a bit buffer asks for is at most what the length field can say, 2^31 - 1, whatever the input is. -/
theorem C98_bounded (s : RState) :
    (∀ n ∈ (readStringM.run s).1.2, n ≤ maxVarsize) ∧ (readStringM.run s).1.2.length ≤ 2 ∧
    (∀ n ∈ (readBytesM.run s).1.2, n ≤ maxVarsize) ∧ (readBytesM.run s).1.2.length ≤ 1 ∧
    (∀ n ∈ (readExternM.run s).1.2, n ≤ maxVarsize / 8 + 1) ∧ (readExternM.run s).1.2.length ≤ 1 := by
  have hv : ∀ {v : BitVec 64} {s' : RState}, rrun readVarsize s = (.ok v, s') → v.toNat ≤ maxVarsize := fun h => (varsize_takes h).2
  unfold readStringM readBytesM readExternM
  simp only [MRd.run_bind, MRd.run_lift, MRd.run_make, MRd.run_pure]
  cases hr : rrun readVarsize s with
  | mk r s1 =>
    cases r with
    | error e => simp
    | ok v =>
      have hv := hv hr
      have hd : v.toNat / 8 ≤ maxVarsize / 8 := Nat.div_le_div_right hv
      dsimp only
      cases hf : rrun (Rd.full v.toNat) s1 with
      | mk q s2 =>
        cases q with
        | error e => simp [hv, hd]
        | ok bs =>
          have := (full_takes hf).2
          simp [hv, hd, this]

/-- **C98**: a string, a byte buffer or a bit buffer that is read asked for no more than twice as many bytes as were read. -/
theorem C98_buffers : readStringM.Frugal 2 ∧ readBytesM.Frugal 1 ∧ readExternM.Frugal 1 := by
  refine ⟨?_, ?_, ?_⟩
  · intro s a ns s' h
    obtain ⟨v, _, s1, _, h1, g1, rfl⟩ := MRd.bind_ok h
    obtain ⟨_, _, s2, _, h2, g2, rfl⟩ := MRd.bind_ok g1
    obtain ⟨bs, _, s3, _, h3, g3, rfl⟩ := MRd.bind_ok g2
    obtain ⟨_, _, s4, _, h4, g4, rfl⟩ := MRd.bind_ok g3
    cases h2; cases h4; cases g4
    obtain ⟨rfl, h1, _⟩ := MRd.lift_ok h1
    obtain ⟨rfl, h3, _⟩ := MRd.lift_ok h3
    have := varsize_takes h1
    have := full_takes h3
    simp only [List.nil_append, List.append_nil, List.sum_append, List.sum_cons, List.sum_nil]
    omega
  · intro s a ns s' h
    obtain ⟨v, _, s1, _, h1, g1, rfl⟩ := MRd.bind_ok h
    obtain ⟨_, _, s2, _, h2, g2, rfl⟩ := MRd.bind_ok g1
    obtain ⟨bs, _, s3, _, h3, g3, rfl⟩ := MRd.bind_ok g2
    cases h2; cases g3
    obtain ⟨rfl, h1, _⟩ := MRd.lift_ok h1
    obtain ⟨rfl, h3, _⟩ := MRd.lift_ok h3
    have := varsize_takes h1
    have := full_takes h3
    simp only [List.nil_append, List.append_nil, List.sum_cons, List.sum_nil]
    omega
  · intro s a ns s' h
    obtain ⟨v, _, s1, _, h1, g1, rfl⟩ := MRd.bind_ok h
    obtain ⟨_, _, s2, _, h2, g2, rfl⟩ := MRd.bind_ok g1
    cases h2
    obtain ⟨rfl, h1, _⟩ := MRd.lift_ok h1
    obtain ⟨rfl, h3, _⟩ := MRd.lift_ok g2
    have := varsize_takes h1
    rw [rrun_bind] at h3
    cases hf : rrun (Rd.full (v.toNat / 8)) s1 with
    | mk q s3 =>
      rw [hf] at h3
      cases q with
      | error e => cases h3
      | ok bs =>
        have := full_takes hf
        have hle : s'.rem.length ≤ s3.rem.length := by
          have := RM.run_rem_le (ExceptT.run (if v.toNat % 8 ≠ 0 then do
            let last ← Rd.bits (v.toNat % 8)
            Pure.pure ⟨bs ++ [(last <<< (8 - v.toNat % 8)).setWidth 8], v⟩
            else Pure.pure ⟨bs, v⟩ : Rd ExternV)) s3
          have h4 := congrArg Prod.snd h3
          simp only at h4
          rw [← h4]
          exact this
        simp only [List.nil_append, List.append_nil, List.sum_cons, List.sum_nil]
        omega

theorem MRd.Takes.le {α : Type} {p : MRd α} {s s' : RState} {r : Except Err α × List Nat} (h : p.run s = (r, s')) : s'.rem.length ≤ s.rem.length := by
  have h1 := RM.run_rem_le p s
  have h2 : RM.run p s = (r, s') := h
  rw [h2] at h1
  exact h1

theorem Arr.plainReadM_frugal {T : Type} {K : Nat} {read : MRd T} (hf : read.Frugal K) (ht : read.Takes) (check : Bool) (n : Nat) :
    ∀ (s : RState) (es : List T) (ns : List Nat) (s' : RState), (Arr.plainReadM read check n).run s = ((.ok es, ns), s') →
      8 * ns.sum + K * s'.rem.length ≤ K * s.rem.length ∧ s'.rem.length + n ≤ s.rem.length ∧ es.length = n := by
  induction n with
  | zero =>
    intro s es ns s' h
    cases h
    simp
  | succ n ih =>
    intro s es ns s' h
    rw [Arr.plainReadM] at h
    obtain ⟨_, _, s1, _, h1, g1, rfl⟩ := MRd.bind_ok h
    obtain ⟨e, _, s2, _, h2, g2, rfl⟩ := MRd.bind_ok g1
    obtain ⟨es', _, s3, _, h3, g3, rfl⟩ := MRd.bind_ok g2
    cases g3
    have k1 := MRd.Frugal.lift K _ _ _ _ _ h1
    have k2 := hf _ _ _ _ h2
    have k3 := ih _ _ _ _ h3
    have t1 := MRd.Takes.le h1
    have t2 := ht _ _ _ _ h2
    simp only [List.sum_append, List.sum_nil, List.length_cons]
    refine ⟨by omega, by omega, by omega⟩

theorem ObjArr.plainReadM_frugal {K : Nat} (m : Meth) {read : Val → MRd Val} (hf : ∀ v, (read v).Frugal K) (ht : ∀ v, (read v).Takes) (check : Bool)
    (setp : Nat → Val → Val) (n : Nat) : ∀ (i : Nat) (s : RState) (es : List Val) (ns : List Nat) (s' : RState),
      (ObjArr.plainReadM m read check setp i n).run s = ((.ok es, ns), s') →
      8 * ns.sum + K * s'.rem.length ≤ K * s.rem.length ∧ s'.rem.length + n ≤ s.rem.length ∧ es.length = n := by
  induction n with
  | zero =>
    intro i s es ns s' h
    cases h
    simp
  | succ n ih =>
    intro i s es ns s' h
    rw [ObjArr.plainReadM] at h
    obtain ⟨_, _, s1, _, h1, g1, rfl⟩ := MRd.bind_ok h
    obtain ⟨e, _, s2, _, h2, g2, rfl⟩ := MRd.bind_ok g1
    obtain ⟨es', _, s3, _, h3, g3, rfl⟩ := MRd.bind_ok g2
    cases g3
    have k1 := MRd.Frugal.lift K _ _ _ _ _ h1
    have k2 := hf _ _ _ _ _ h2
    have k3 := ih _ _ _ _ _ h3
    have t1 := MRd.Takes.le h1
    have t2 := ht _ _ _ _ _ h2
    simp only [List.sum_append, List.sum_nil, List.length_cons]
    refine ⟨by omega, by omega, by omega⟩

/-- **C98** (partial): an array that is not packed, whose elements take at least a bit each, asks for no more elements than bits were read; what its elements ask
for comes on top.  So arrays in arrays ask for a multiple of what was read that grows with the nesting only.  Missing: packed arrays, elements without bits,
and input that is not accepted (below). -/
theorem C98_arrays_partial {T : Type} (tr : Traits T) (read : MRd T) (K : Nat) (hf : read.Frugal K) (ht : read.Takes) (cfg : ArrCfg) (hu : cfg.isPacked = false) :
    (Arr.unmarshalM tr read cfg).Frugal (K + 8) := by
  intro s es ns s' h
  obtain ⟨n, _, s1, _, h1, g1, rfl⟩ := MRd.bind_ok h
  obtain ⟨_, _, s2, _, h2, g2, rfl⟩ := MRd.bind_ok g1
  cases h2
  obtain ⟨rfl, h1, t1⟩ := MRd.lift_ok h1
  rw [hu] at g2
  obtain ⟨k1, k2, _⟩ := Arr.plainReadM_frugal hf ht _ _ _ _ _ _ g2
  have t3 := Nat.mul_le_mul_left K t1
  simp only [List.nil_append, List.sum_append, List.sum_cons, List.sum_nil]
  rw [Nat.add_mul, Nat.add_mul]
  omega

/-- **C98** (partial): the same for arrays of objects. -/
theorem C98_objects_partial (m : Meth) (read : Val → MRd Val) (K : Nat) (hf : ∀ v, (read v).Frugal K) (ht : ∀ v, (read v).Takes) (cfg : ArrCfg)
    (hu : cfg.isPacked = false) (setp : Nat → Val → Val) : (ObjArr.unmarshalM m read cfg setp).Frugal (K + 8) := by
  intro s es ns s' h
  obtain ⟨n, _, s1, _, h1, g1, rfl⟩ := MRd.bind_ok h
  obtain ⟨_, _, s2, _, h2, g2, rfl⟩ := MRd.bind_ok g1
  cases h2
  obtain ⟨rfl, h1, t1⟩ := MRd.lift_ok h1
  have t3 := Nat.mul_le_mul_left K t1
  simp only [List.nil_append, List.sum_append, List.sum_cons, List.sum_nil]
  rw [Nat.add_mul, Nat.add_mul]
  rw [hu] at g2
  by_cases h0 : n = 0
  · rw [if_pos h0] at g2
    cases g2
    simp only [List.sum_nil]
    omega
  · rw [if_neg h0] at g2
    obtain ⟨k1, k2, _⟩ := ObjArr.plainReadM_frugal m hf ht _ _ _ _ _ _ _ _ g2
    omega

/-- Fields one after another: the multiple of an object is that of its greediest field. -/
theorem C98_sequence {α β : Type} (p : MRd α) (f : α → MRd β) (K : Nat) (hp : p.Frugal K) (hf : ∀ a, (f a).Frugal K) : (p.bind f).Frugal K := by
  intro s b ns s' h
  obtain ⟨a, _, s1, _, h1, h2, rfl⟩ := MRd.bind_ok h
  have k1 := hp _ _ _ _ h1
  have k2 := hf _ _ _ _ _ h2
  rw [List.sum_append]
  omega

/-! ## Where it does not hold -/

/-- An input that begins with the length `n`, at most five bytes. -/
theorem lengthBits (n : Nat) (hn : n ≤ maxVarsize) : ∃ out : List Bool, out.length ≤ 40 ∧ ∃ v : BitVec 64, v.toNat = n ∧
    ∀ rest, rrun readVarsize ⟨out ++ rest, 0⟩ = (.ok v, ⟨rest, out.length⟩) := by
  have e : (BitVec.ofNat 64 n).toNat = n := ofNat64_toNat (by unfold maxVarsize at hn; omega)
  obtain ⟨out, k, h1, h2, h3, _, h5⟩ := (C04_varsize (BitVec.ofNat 64 n) []).1 (by rw [e]; exact hn)
  refine ⟨out, by omega, _, e, fun rest => ?_⟩
  have := h5 rest
  rw [List.length_nil, Nat.zero_add] at this
  exact this

/-- **C98, violated**: a length of five bytes, with nothing behind it, makes a reader ask for as much memory as the length says, two gigabytes at most, before it
reports an error. -/
theorem C98_violated_length (n : Nat) (h0 : 0 < n) (hn : n ≤ maxVarsize) : ∃ input : List Bool, input.length ≤ 40 ∧
    (∃ e s, readStringM.run ⟨input, 0⟩ = ((.error e, [n]), s)) ∧ (∃ e s, readBytesM.run ⟨input, 0⟩ = ((.error e, [n]), s)) ∧
    ∀ (k : Elem) (read : MRd k.T) (fixed : Nat), (∀ pos, ∃ e s, read.run ⟨[], pos⟩ = ((.error e, []), s)) →
      ∃ e s, (Arr.unmarshalM k.traits read ⟨fixed, true, false, false, false⟩).run ⟨input, 0⟩ = ((.error e, [n]), s) := by
  obtain ⟨out, hl, v, rfl, hr⟩ := lengthBits n hn
  have hr := hr []
  rw [List.append_nil] at hr
  obtain ⟨e, s, hf⟩ : ∃ e s, rrun (Rd.full v.toNat) ⟨[], out.length⟩ = (.error e, s) :=
    ⟨_, _, (rrun_call (.full v.toNat) ⟨[], out.length⟩).trans (if_neg (by simp [ROp.need]; omega))⟩
  refine ⟨out, hl, ⟨e, s, ?_⟩, ⟨e, s, ?_⟩, fun k read fixed hread => ?_⟩
  · unfold readStringM
    simp only [MRd.run_bind, MRd.run_lift, MRd.run_make, hr, hf, List.nil_append, List.append_nil]
  · unfold readBytesM
    simp only [MRd.run_bind, MRd.run_lift, MRd.run_make, hr, hf, List.nil_append, List.append_nil]
  · obtain ⟨e, s, he⟩ := hread out.length
    refine ⟨e, s, ?_⟩
    obtain ⟨j, hj⟩ : ∃ j, v.toNat = j + 1 := ⟨v.toNat - 1, by omega⟩
    have hr' : rrun (do let n ← readVarsize; pure n.toNat : Rd Nat) ⟨out, 0⟩ = (.ok (j + 1), ⟨[], out.length⟩) := by
      rw [rrun_bind, hr, ← hj]
      rfl
    have ha : rrun (offsetAlignR false) ⟨[], out.length⟩ = (.ok (), ⟨[], out.length⟩) := rfl
    unfold Arr.unmarshalM
    simp only [if_true, MRd.run_bind, MRd.run_lift, MRd.run_make, hr', Bool.false_eq_true, if_false, Arr.plainReadM, ha, he, List.nil_append, List.append_nil, hj]

theorem packedRead_same {T : Type} (tr : Traits T) (p : BitVec 64) (e : T) (he : tr.fromU64 p = e) (c : DCtx) (h1 : c.started = true) (h2 : c.isPacked = true)
    (h3 : c.maxBit = 0) (h4 : c.prev = some p) (s : RState) (n : Nat) : rrun (Arr.packedRead tr false n c) s = (.ok (List.replicate n e), s) := by
  induction n with
  | zero => rfl
  | succ n ih =>
    have hc : rrun (DCtx.read tr c) s = (.ok (e, c), s) := by
      unfold DCtx.read
      simp [h1, h2, h3, rrun_pure, h4, he]
    have ha : rrun (offsetAlignR false) s = (.ok (), s) := rfl
    rw [Arr.packedRead, rrun_bind, ha]
    dsimp only
    rw [rrun_bind, hc]
    dsimp only
    rw [rrun_bind, ih]
    rfl

/-- **C98, violated**: a packed array with the same element `n` times takes the bits of one element and six bytes, whatever `n` is, up to two thousand
million. -/
theorem C98_violated_packed (k : Elem) (hk : k.Wf) (hi : k.IntLike) (e : k.T) (he : k.Ok e) (n : Nat) (h0 : 0 < n) (hn : n ≤ maxVarsize) (fixed : Nat) :
    ∃ (head : List Bool), head.length ≤ 47 ∧ ∃ one : List Bool, Reads k.traits.read one head.length e ∧ ∀ read : MRd k.T,
      (Arr.unmarshalM k.traits read ⟨fixed, true, true, false, false⟩).run ⟨head ++ one, 0⟩ =
        ((.ok (List.replicate n e), [n]), ⟨[], head.length + one.length⟩) := by
  obtain ⟨out, hl, v, rfl, hr⟩ := lengthBits n hn
  obtain ⟨j, hj⟩ : ∃ j, v.toNat = j + 1 := ⟨v.toNat - 1, by omega⟩
  obtain ⟨one, _, ho⟩ := k.rt hk e he (out ++ (true :: natBits 6 0))
  have hlen : (out ++ (true :: natBits 6 0)).length = out.length + 7 := by simp
  refine ⟨out ++ (true :: natBits 6 0), by omega, one, ho, fun read => ?_⟩
  have hsize : rrun (do let n ← readVarsize; pure n.toNat : Rd Nat) ⟨out ++ (true :: natBits 6 0) ++ one, 0⟩ =
      (.ok (j + 1), ⟨true :: natBits 6 0 ++ one, out.length⟩) := by
    rw [List.append_assoc, rrun_bind, hr, ← hj]
    rfl
  have hone : rrun k.traits.read ⟨one, out.length + 1 + 6⟩ = (.ok e, ⟨[], out.length + 7 + one.length⟩) := by
    have := ho []
    rw [List.append_nil, hlen] at this
    exact this
  have hbits : rrun (Rd.bits 6) ⟨natBits 6 0 ++ one, out.length + 1⟩ = (.ok 0#64, ⟨one, out.length + 1 + 6⟩) := by
    rw [rrun_bits_append 6 (natBits 6 0) one _ (by simp)]
    rfl
  have hfirst : rrun (DCtx.read k.traits DCtx.new) ⟨true :: natBits 6 0 ++ one, out.length⟩ =
      (.ok (e, { DCtx.new with started := true, isPacked := true, maxBit := 0, prev := some (k.traits.asU64 e) }), ⟨[], out.length + 7 + one.length⟩) := by
    unfold DCtx.read DCtx.readDescriptorDropped DCtx.readUnpacked
    have hnew : (!DCtx.new.started) = true := rfl
    rw [if_pos hnew, rrun_bind, rrun_bind, rrun_dropErr, List.cons_append, rrun_bool_cons]
    dsimp only
    rw [if_pos rfl, rrun_bind, rrun_dropErr, hbits]
    dsimp only
    rw [rrun_pure]
    dsimp only
    rw [rrun_bind, hone]
    rfl
  have hall : rrun (Arr.packedRead k.traits false (j + 1) DCtx.new) ⟨true :: natBits 6 0 ++ one, out.length⟩ =
      (.ok (List.replicate (j + 1) e), ⟨[], out.length + 7 + one.length⟩) := by
    have ha : ∀ s, rrun (offsetAlignR false) s = (.ok (), s) := fun s => rfl
    rw [Arr.packedRead, rrun_bind, ha]
    dsimp only
    rw [rrun_bind, hfirst]
    dsimp only
    rw [rrun_bind, packedRead_same k.traits (k.traits.asU64 e) e (k.recover hk hi e he) _ rfl rfl rfl rfl]
    rfl
  unfold Arr.unmarshalM
  simp only [if_true, MRd.run_bind, MRd.run_lift, MRd.run_make, hsize, hall, List.nil_append, List.append_nil, hj, hlen]

/-- **C98, violated**: elements without bits, like those of `struct Empty {}`, are read as often as the length says. -/
theorem C98_violated_empty (m : Meth) (hm : m.unmarshal m.zero = pure m.zero) (n : Nat) (hn : n ≤ maxVarsize) (fixed : Nat) :
    ∃ input : List Bool, input.length ≤ 40 ∧ ∃ s,
      (ObjArr.unmarshalM m (fun v => .lift (m.unmarshal v)) ⟨fixed, true, false, false, false⟩ fun _ v => v).run ⟨input, 0⟩ =
        ((.ok (List.replicate n m.zero), [n]), s) := by
  obtain ⟨out, hl, v, rfl, hr⟩ := lengthBits n hn
  have hr := hr []
  rw [List.append_nil] at hr
  refine ⟨out, hl, ⟨[], out.length⟩, ?_⟩
  have hsize : rrun (do let n ← readVarsize; pure n.toNat : Rd Nat) ⟨out, 0⟩ = (.ok v.toNat, ⟨[], out.length⟩) := by
    rw [rrun_bind, hr]
    rfl
  have hloop : ∀ (j i : Nat) (s : RState), (ObjArr.plainReadM m (fun v => .lift (m.unmarshal v)) false (fun _ v => v) i j).run s =
      ((.ok (List.replicate j m.zero), []), s) := by
    intro j
    induction j with
    | zero => intro i s; rfl
    | succ j ih =>
      intro i s
      have ha : rrun (offsetAlignR false) s = (.ok (), s) := rfl
      simp only [ObjArr.plainReadM, MRd.run_bind, MRd.run_lift, ha, hm, rrun_pure, ih, MRd.run_pure, List.append_nil]
      rfl
  unfold ObjArr.unmarshalM
  simp only [if_true, MRd.run_bind, MRd.run_lift, MRd.run_make, hsize, List.nil_append, Bool.false_eq_true, if_false]
  split
  · rename_i h0
    rw [h0]
    rfl
  · simp only [hloop, List.append_nil]

/-! ## Cases -/

/-- Integers, and strings, take at least a bit. -/
theorem readBool_takes : (MRd.lift Rd.bool).Takes := by
  intro s a ns s' h
  obtain ⟨_, h, _⟩ := MRd.lift_ok h
  have h := (rrun_call .bool s).symm.trans h
  split at h
  · rename_i hn
    have hn : 1 ≤ s.rem.length := hn
    rw [← (Prod.mk.inj h).2]
    simp [ROp.need]
    omega
  · cases (Prod.mk.inj h).1

theorem readString_takes : readStringM.Takes := by
  intro s a ns s' h
  obtain ⟨v, _, s1, _, h1, g1, rfl⟩ := MRd.bind_ok h
  obtain ⟨_, h1, _⟩ := MRd.lift_ok h1
  have := (varsize_takes h1).1
  have := MRd.Takes.le g1
  omega

/-- `string names[];` asks for at most ten bits per bit that was read. -/
example : (Arr.unmarshalM stringTraits readStringM ⟨0, true, false, false, false⟩).Frugal 10 :=
  C98_arrays_partial _ _ 2 C98_buffers.1 readString_takes _ rfl

/-- `bool flags[];` -/
example : (Arr.unmarshalM boolTraits (.lift Rd.bool) ⟨0, true, false, false, false⟩).Frugal 8 :=
  C98_arrays_partial _ _ 0 (MRd.Frugal.lift 0 _) readBool_takes _ rfl

/-- `struct Empty {}; struct A { Empty e[]; };` reads two thousand million elements from five bytes. -/
example : ∃ input : List Bool, input.length ≤ 40 ∧ ∃ s, (ObjArr.unmarshalM (methods (fun _ => .struct []) 1 0)
    (fun v => .lift ((methods (fun _ => .struct []) 1 0).unmarshal v)) ⟨0, true, false, false, false⟩ fun _ v => v).run ⟨input, 0⟩ =
      ((.ok (List.replicate 2000000000 (methods (fun _ => .struct []) 1 0).zero), [2000000000]), s) :=
  C98_violated_empty _ rfl _ (by decide) _

/-- `packed uint8 a[];` with 7 a thousand million times. -/
example : ∃ head : List Bool, head.length ≤ 47 ∧ ∃ one : List Bool, Reads (Elem.bits 8 8).traits.read one head.length (7#8 : BitVec 8) ∧ ∀ read : MRd (BitVec 8),
    (Arr.unmarshalM (Elem.bits 8 8).traits read ⟨0, true, true, false, false⟩).run ⟨head ++ one, 0⟩ =
      ((.ok (List.replicate 1000000000 (7#8 : BitVec 8)), [1000000000]), ⟨[], head.length + one.length⟩) :=
  C98_violated_packed (.bits 8 8) ⟨by decide, by decide, by decide⟩ trivial _ (by show (7 : Nat) < _; decide) _ (by decide) (by decide) 0

/-- Two gigabytes for five bytes. -/
example : ∃ input : List Bool, input.length ≤ 40 ∧ ∃ e s, readStringM.run ⟨input, 0⟩ = ((.error e, [2147483647]), s) := by
  obtain ⟨input, h1, h2, _⟩ := C98_violated_length 2147483647 (by decide) (by decide)
  exact ⟨input, h1, h2⟩

end Verif
