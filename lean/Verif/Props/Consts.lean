import Verif.FoldLaws

/-!
# C34: constants that refer to constants
-/

namespace Verif

variable {F P : Type}

/-! ## Specification -/

/-- A constant refers to another one: a name in its expression stands for it in the package of the constant. -/
def Consts.Refers (C : Consts F P) (k k' : Nat) : Prop := ∃ n ∈ (C.expr k).names, C.lookup (C.home k) n = some k'

/-- The value of a constant: that of its expression, when every name has the value of the constant it stands for. A constant
that (transitively) refers to itself has none. -/
inductive Denotes (o : FloatOps F) (C : Consts F P) : Nat → Res F → Prop
  | mk (k : Nat) (vals : Nat → Res F) (r : Res F) (full : Bool) : (∀ k', C.Refers k k' → Denotes o C k' (vals k')) →
      fold o (C.env (C.home k) vals) (C.expr k) = ⟨.ok, r, full⟩ → Denotes o C k r

/-- The constants whose expressions are evaluated with the names of package `p`: its own ones and those its expressions lead to. -/
inductive Consts.ReadIn (C : Consts F P) (p : P) : Nat → Prop
  | own (k : Nat) : k < C.n → C.home k = p → ReadIn C p k
  | step (j : Nat) (name : Text) (k : Nat) : ReadIn C p j → name ∈ (C.expr j).names → C.lookup p name = some k → ReadIn C p k

/-- Wherever the expression of a constant is read, its names mean what they mean in the package of the constant. This holds for
one package, and when packages use different names. -/
def Consts.Coherent (C : Consts F P) : Prop :=
  ∀ p k, C.ReadIn p k → ∀ n ∈ (C.expr k).names, C.lookup p n = C.lookup (C.home k) n

/-- No constant refers to itself, not even through others. -/
def Consts.Acyclic (C : Consts F P) : Prop := ∃ rank : Nat → Nat, ∀ k k', C.Refers k k' → rank k' < rank k

/-- An expression whose evaluation fails when the type of a constant in it is missing. -/
def Ex.Demands (o : FloatOps F) (e : Ex F) : Prop :=
  ∀ env, (fold o env e).out = .ok → ∀ n ∈ e.names, ∀ r, env n = .found r → r.ty ≠ none

theorem Denotes.unique {o : FloatOps F} {C : Consts F P} {k : Nat} {r r' : Res F} (h : Denotes o C k r) (h' : Denotes o C k r') :
    r = r' := by
  induction h generalizing r' with
  | mk k vals r full _ hf ih =>
    cases h' with
    | mk _ vals' _ full' hv' hf' =>
      rw [fold_congr o _ (C.env (C.home k) vals') (C.expr k) (by
        intro n hn
        simp only [Consts.env]
        split
        · rfl
        · rename_i k' hk'
          rw [ih k' ⟨n, hn, hk'⟩ (hv' k' ⟨n, hn, hk'⟩)])] at hf
      rw [hf] at hf'
      exact (EVal.mk.inj hf').2.1

theorem Denotes.acc {o : FloatOps F} {C : Consts F P} {k : Nat} {r : Res F} (h : Denotes o C k r) :
    Acc (fun a b => C.Refers b a) k := by
  induction h with
  | mk k vals r full _ _ ih => exact ⟨_, fun k' hk' => ih k' hk'⟩

theorem acc_irrefl {α : Type} {r : α → α → Prop} {a : α} (h : Acc r a) : ¬ r a a := by
  induction h with
  | intro x _ ih => intro hx; exact ih x hx hx

theorem Denotes.not_cyclic {o : FloatOps F} {C : Consts F P} {k : Nat} {r : Res F} (h : Denotes o C k r) :
    ¬ Relation.TransGen C.Refers k k := by
  intro hc
  have hacc := (Denotes.acc h).transGen
  have hs : Relation.TransGen (fun a b => C.Refers b a) k k := by
    rw [← Function.swap_def C.Refers, Relation.transGen_swap]
    exact hc
  exact acc_irrefl hacc hs

theorem readIn_lt {C : Consts F P} {p : P} {k : Nat} (h : C.ReadIn p k) : k < C.n := by
  cases h with
  | own _ h _ => exact h
  | step j name _ _ _ hl => exact C.lookup_lt p name k hl

/-! ## Termination -/

theorem evalTree_mono {S : Type} (o : FloatOps F) (h h' : Text → S → Option (Ans F × S))
    (hh : ∀ n s r, h n s = some r → h' n s = some r) (e : Ex F) :
    ∀ s r, evalTree o h e s = some r → evalTree o h' e s = some r := by
  induction e with
  | leaf => intro s r hr; exact hr
  | ref n =>
    intro s r hr
    simp only [evalTree] at hr ⊢
    split at hr
    · cases hr
    · rename_i a s1 h1; rw [hh n s _ h1]; exact hr
  | un op e ih =>
    intro s r hr
    simp only [evalTree] at hr ⊢
    split at hr
    · cases hr
    · rename_i x s1 h1; rw [ih s _ h1]; exact hr
  | bin op a b iha ihb =>
    intro s r hr
    simp only [evalTree] at hr ⊢
    split at hr
    · cases hr
    · rename_i x s1 h1
      rw [iha s _ h1]
      dsimp only
      split at hr
      · rename_i hx; rw [if_pos hx]; exact hr
      · rename_i hx
        rw [if_neg hx]
        split at hr
        · cases hr
        · rename_i y s2 h2; rw [ihb s1 _ h2]; exact hr
  | tern c a b ihc iha ihb =>
    intro s r hr
    simp only [evalTree] at hr ⊢
    split at hr
    · cases hr
    · rename_i x s1 h1
      rw [ihc s _ h1]
      dsimp only
      split at hr
      · rename_i hx; rw [if_pos hx]; exact hr
      · rename_i hx
        rw [if_neg hx]
        split at hr
        · cases hr
        · rename_i y s2 h2
          rw [iha s1 _ h2]
          dsimp only
          split at hr
          · rename_i hy; rw [if_pos hy]; exact hr
          · rename_i hy
            rw [if_neg hy]
            split at hr
            · cases hr
            · rename_i z s3 h3; rw [ihb s2 _ h3]; exact hr

theorem visit_mono (o : FloatOps F) (C : Consts F P) (p : P) :
    ∀ fuel k st r, visitConst o C p fuel k st = some r → visitConst o C p (fuel + 1) k st = some r := by
  intro fuel
  induction fuel with
  | zero => intro k st r h; simp [visitConst] at h
  | succ fuel ih =>
    intro k st r h
    rw [visitConst] at h ⊢
    split at h
    · exact h
    · exact h
    · split at h
      · cases h
      · rename_i v s1 h1
        rw [evalTree_mono o _ _ (by
          intro n s r hr
          simp only [answer] at hr ⊢
          split at hr
          · exact hr
          · rename_i k' hk'
            split at hr
            · cases hr
            · rename_i hv; rw [ih _ _ _ hv]; exact hr
            · rename_i out s2 hp hv
              rw [ih _ _ _ hv]
              cases out
              · exact hr
              · exact hr
              · exact absurd rfl hp) _ _ _ h1]
        exact h

theorem evaluate_mono (o : FloatOps F) (C : Consts F P) (fuel : Nat) :
    ∀ order st r, evaluateConsts o C fuel order st = some r → evaluateConsts o C (fuel + 1) order st = some r := by
  intro order
  induction order with
  | nil => intro st r h; exact h
  | cons k ks ih =>
    intro st r h
    simp only [evaluateConsts] at h ⊢
    split at h
    · cases h
    · rename_i hv; rw [visit_mono o C _ _ _ _ _ hv]; exact ih _ _ h
    · rename_i out s2 hp hv
      rw [visit_mono o C _ _ _ _ _ hv]
      cases out
      · exact absurd rfl hp
      · exact h
      · exact h

/-- **C34.** The evaluation of the constants ends, in whatever order they are taken, with and without cycles: nested
evaluations are at most one deeper than there are constants, and a larger bound changes nothing. -/
theorem C34_terminates (o : FloatOps F) (C : Consts F P) (order : List Nat) (ho : ∀ k ∈ order, k < C.n) (fuel : Nat)
    (hf : C.n < fuel) :
    ∃ r, evaluateConsts o C fuel order (CStates.start o) = some r
      ∧ evaluateConsts o C (C.n + 1) order (CStates.start o) = some r := by
  have hl : C.left (CStates.start o) ≤ C.n := by
    unfold Consts.left
    exact (List.length_filter_le _ _).trans (by simp)
  obtain ⟨out, st', h⟩ := evaluate_total o C (C.n + 1) order (CStates.start o) ho (by omega)
  refine ⟨_, ?_, h⟩
  induction fuel, (show C.n + 1 ≤ fuel from hf) using Nat.le_induction with
  | base => exact h
  | succ m hm ih => exact evaluate_mono o C m order _ _ (ih (by omega))

/-! ## What an evaluation without error means -/

theorem visit_ok_complete (o : FloatOps F) (C : Consts F P) (p : P) (fuel k : Nat) (st st' : CStates F)
    (h : visitConst o C p fuel k st = some (.ok, st')) : (st' k).status = .complete := by
  cases fuel with
  | zero => simp [visitConst] at h
  | succ fuel =>
    simp only [visitConst] at h
    split at h
    · rename_i hk; simp only [Option.some.injEq, Prod.mk.injEq] at h; rw [← h.2, hk]
    · simp at h
    · split at h
      · cases h
      · split at h <;> simp only [Option.some.injEq, Prod.mk.injEq] at h
        · rw [← h.2]; simp [CStates.set]
        · exact absurd h.1 (by simp)
        · exact absurd h.1 (by simp)

/-- Either an evaluation has failed, or all completed constants have their value; `S` are the constants whose evaluation is
under way. -/
def ConstInv (o : FloatOps F) (C : Consts F P) (S : Nat → Prop) (st : CStates F) : Prop :=
  (∃ j, j < C.n ∧ (st j).status = .inProgress ∧ ¬ S j) ∨ (∀ k, (st k).status = .complete → Denotes o C k (st k).res)

theorem visit_inv (o : FloatOps F) (C : Consts F P) (hco : C.Coherent) (p : P) (Safe : (Nat → Prop) → Nat → Prop)
    (hnext : ∀ S k k', Safe S k → C.Refers k k' → Safe (fun j => S j ∨ j = k) k')
    (hsep : ∀ S k vals, Safe S k → (fold o (C.env (C.home k) vals) (C.expr k)).out = .ok →
      (∀ j, S j ∨ j = k → vals j = Res.init o) → ∀ k', C.Refers k k' → ¬ (S k' ∨ k' = k)) :
    ∀ fuel k st out st' (S : Nat → Prop), visitConst o C p fuel k st = some (out, st') → C.ReadIn p k → Safe S k →
      (∀ j, S j → st j = ⟨.inProgress, Res.init o⟩) → ConstInv o C S st → ConstInv o C S st' := by
  intro fuel
  induction fuel with
  | zero => intro k st out st' S h; simp [visitConst] at h
  | succ fuel ih =>
    intro k st out st' S h hread hsafe hstack hinv
    have hkn := readIn_lt hread
    simp only [visitConst] at h
    split at h
    · simp only [Option.some.injEq, Prod.mk.injEq] at h; rw [← h.2]; exact hinv
    · simp only [Option.some.injEq, Prod.mk.injEq] at h; rw [← h.2]; exact hinv
    · rename_i hk
      have hkS : ¬ S k := fun hs => by rw [hstack k hs] at hk; cases hk
      split at h
      · cases h
      · rename_i v st1 htree
        have hfr := evalTree_rel o _ Frame Frame.refl (fun _ _ _ => Frame.trans) _ (fun n _ => answer_frame o C p fuel n) _ _ _ htree
        have hstack0 : ∀ j, S j ∨ j = k → st.set k ⟨.inProgress, Res.init o⟩ j = ⟨.inProgress, Res.init o⟩ := by
          intro j hj
          by_cases e : j = k
          · simp [CStates.set, e]
          · rw [CStates.set, if_neg e]; exact hstack j (hj.resolve_right e)
        have hinv0 : ConstInv o C (fun j => S j ∨ j = k) (st.set k ⟨.inProgress, Res.init o⟩) := by
          rcases hinv with ⟨j, hjn, hj, hjS⟩ | hinv
          · have hjk : j ≠ k := fun e => by rw [e, hk] at hj; cases hj
            exact .inl ⟨j, hjn, by simpa [CStates.set, hjk] using hj, by simp [hjS, hjk]⟩
          · refine .inr (fun j hj => ?_)
            by_cases e : j = k
            · simp [CStates.set, e] at hj
            · simp only [CStates.set, if_neg e] at hj ⊢; exact hinv j hj
        have hR := evalTree_rel o (answer C p (visitConst o C p fuel))
          (fun s s' => ((∀ j, S j ∨ j = k → s j = ⟨.inProgress, Res.init o⟩) ∧ ConstInv o C (fun j => S j ∨ j = k) s) →
            ((∀ j, S j ∨ j = k → s' j = ⟨.inProgress, Res.init o⟩) ∧ ConstInv o C (fun j => S j ∨ j = k) s'))
          (fun _ h => h) (fun _ _ _ h1 h2 h => h2 (h1 h)) (C.expr k) (by
            intro n hn s a s' hs ⟨hst, hi⟩
            have hf := answer_frame o C p fuel n s a s' hs
            refine ⟨fun j hj => by rw [hf j (by rw [hst j hj]; simp), hst j hj], ?_⟩
            simp only [answer] at hs
            split at hs
            · simp only [Option.some.injEq, Prod.mk.injEq] at hs; rw [← hs.2]; exact hi
            · rename_i k' hk'
              have href : C.Refers k k' := ⟨n, hn, by rw [← hco p k hread n hn]; exact hk'⟩
              have hrd : C.ReadIn p k' := .step k n k' hread hn hk'
              split at hs
              · cases hs
              · rename_i hv
                simp only [Option.some.injEq, Prod.mk.injEq] at hs
                rw [← hs.2]; exact ih _ _ _ _ _ hv hrd (hnext S k k' hsafe href) hst hi
              · rename_i _ hv
                simp only [Option.some.injEq, Prod.mk.injEq] at hs
                rw [← hs.2]; exact ih _ _ _ _ _ hv hrd (hnext S k k' hsafe href) hst hi) _ _ _ htree ⟨hstack0, hinv0⟩
        obtain ⟨hstack1, hinv1⟩ := hR
        have hk1 : st1 k = ⟨.inProgress, Res.init o⟩ := hstack1 k (.inr rfl)
        split at h
        · -- the expression has been evaluated
          rename_i hok
          simp only [Option.some.injEq, Prod.mk.injEq] at h
          rw [← h.2]
          rcases hinv1 with ⟨j, hjn, hj, hjS⟩ | hinv1
          · have hjk : j ≠ k := fun e => hjS (.inr e)
            exact .inl ⟨j, hjn, by simpa [CStates.set, hjk] using hj, fun hS => hjS (.inl hS)⟩
          · by_cases hfail : ∃ j, j < C.n ∧ (st1 j).status = .inProgress ∧ ¬ (S j ∨ j = k)
            · obtain ⟨j, hjn, hj, hjS⟩ := hfail
              have hjk : j ≠ k := fun e => hjS (.inr e)
              exact .inl ⟨j, hjn, by simpa [CStates.set, hjk] using hj, fun hS => hjS (.inl hS)⟩
            · refine .inr (fun j hj => ?_)
              by_cases e : j = k
              · subst e
                obtain ⟨hfold, hstarted⟩ := evalTree_fold o C p fuel _ _ _ _ htree (by rw [hok]; simp)
                have hstarted := hstarted hok
                have henv : ∀ n ∈ (C.expr j).names, C.env p st1.vals n = C.env (C.home j) st1.vals n := by
                  intro n hn; simp only [Consts.env, hco p j hread n hn]
                rw [fold_congr o _ _ _ henv] at hfold
                have hsep := hsep S j st1.vals hsafe (by rw [hfold]; exact hok)
                  (fun i hi => by simp only [CStates.vals, hstack1 i hi])
                rw [CStates.set, if_pos rfl]
                refine .mk j st1.vals v.res v.full ?_ (by rw [hfold, ← hok])
                intro k' hk'
                obtain ⟨n, hn, hl⟩ := id hk'
                have hs := hstarted n hn k' (by rw [hco p j hread n hn]; exact hl)
                cases hst : (st1 k').status with
                | notStarted => exact absurd hst hs
                | inProgress => exact absurd ⟨k', C.lookup_lt _ _ _ hl, hst, hsep k' hk'⟩ hfail
                | complete => exact hinv1 k' hst
              · simp only [CStates.set, if_neg e] at hj ⊢; exact hinv1 j hj
        · simp only [Option.some.injEq, Prod.mk.injEq] at h
          rw [← h.2]
          exact .inl ⟨k, hkn, by simp [CStates.set], hkS⟩
        · simp only [Option.some.injEq, Prod.mk.injEq] at h
          rw [← h.2]
          exact .inl ⟨k, hkn, by rw [hk1], hkS⟩

theorem evaluate_inv (o : FloatOps F) (C : Consts F P) (hco : C.Coherent) (Safe : (Nat → Prop) → Nat → Prop)
    (h0 : ∀ k, Safe (fun _ => False) k)
    (hnext : ∀ S k k', Safe S k → C.Refers k k' → Safe (fun j => S j ∨ j = k) k')
    (hsep : ∀ S k vals, Safe S k → (fold o (C.env (C.home k) vals) (C.expr k)).out = .ok →
      (∀ j, S j ∨ j = k → vals j = Res.init o) → ∀ k', C.Refers k k' → ¬ (S k' ∨ k' = k)) (fuel : Nat) :
    ∀ order st st', (∀ k ∈ order, k < C.n) → evaluateConsts o C fuel order st = some (.ok, st') →
      ConstInv o C (fun _ => False) st →
      ConstInv o C (fun _ => False) st' ∧ Frame st st' ∧ ∀ k ∈ order, (st' k).status = .complete := by
  intro order
  induction order with
  | nil =>
    intro st st' _ h hi
    simp only [evaluateConsts, Option.some.injEq, Prod.mk.injEq, true_and] at h
    rw [← h]; exact ⟨hi, Frame.refl _, by simp⟩
  | cons k ks ih =>
    intro st st' hn h hi
    simp only [evaluateConsts] at h
    split at h
    · cases h
    · rename_i s1 hv
      have h1 := visit_inv o C hco (C.home k) Safe hnext hsep fuel k st .ok s1 _ hv (.own k (hn k (by simp)) rfl) (h0 k)
        (fun _ h => h.elim) hi
      obtain ⟨i1, i2, i3⟩ := ih s1 st' (fun j hj => hn j (by simp [hj])) h h1
      refine ⟨i1, (visit_frame o C _ _ _ _ _ _ hv).trans i2, ?_⟩
      intro j hj
      rcases List.mem_cons.mp hj with rfl | hj
      · have hc := visit_ok_complete o C _ _ _ _ _ hv
        rw [i2 j (by rw [hc]; simp)]; exact hc
      · exact i3 j hj
    · rename_i hne _
      simp only [Option.some.injEq, Prod.mk.injEq] at h
      exact absurd h.1 (by simpa using hne)

/-- **C34 (part).** If the constants do not refer to themselves, or every expression fails when the type of a constant in it
is missing, then an evaluation without error gives every constant its value - in every order. -/
theorem C34_sound_partial (o : FloatOps F) (C : Consts F P) (hco : C.Coherent)
    (h : C.Acyclic ∨ ∀ k, (C.expr k).Demands o) (fuel : Nat) (order : List Nat) (horder : ∀ k, k ∈ order ↔ k < C.n)
    (st : CStates F) (hok : evaluateConsts o C fuel order (CStates.start o) = some (.ok, st)) :
    ∀ k < C.n, (st k).status = .complete ∧ Denotes o C k (st k).res := by
  have hstart : ConstInv o C (fun _ => False) (CStates.start o) := .inr (fun k hk => by simp [CStates.start] at hk)
  have fin : (ConstInv o C (fun _ => False) st ∧ Frame (CStates.start o) st ∧ ∀ k ∈ order, (st k).status = .complete) →
      ∀ k < C.n, (st k).status = .complete ∧ Denotes o C k (st k).res := by
    rintro ⟨i1, _, i3⟩ k hk
    rcases i1 with ⟨j, hjn, hj, _⟩ | i1
    · rw [i3 j ((horder j).mpr hjn)] at hj; cases hj
    · have hc := i3 k ((horder k).mpr hk)
      exact ⟨hc, i1 k hc⟩
  apply fin
  rcases h with ⟨rank, hrank⟩ | hdem
  · refine evaluate_inv o C hco (fun S k => ∀ j, S j → rank k < rank j) (fun _ _ h => h.elim) ?_ ?_ fuel order _ st
      (fun k hk => (horder k).mp hk) hok hstart
    · intro S k k' hs hr j hj
      have := hrank k k' hr
      rcases hj with hj | rfl
      · have := hs j hj; omega
      · exact this
    · intro S k vals hs _ _ k' hr hj
      have := hrank k k' hr
      rcases hj with hj | rfl
      · have := hs k' hj; omega
      · omega
  · refine evaluate_inv o C hco (fun _ _ => True) (fun _ => trivial) (fun _ _ _ _ _ => trivial) ?_ fuel order _ st
      (fun k hk => (horder k).mp hk) hok hstart
    intro S k vals _ hf hv k' hr hj
    obtain ⟨n, hn, hl⟩ := hr
    have := hdem k _ hf n hn (vals k') (by simp [Consts.env, hl])
    rw [hv k' hj] at this
    exact this rfl

/-- **C34 (part).** If every expression fails when the type of a constant in it is missing, a cycle is reported: the
evaluation does not succeed. -/
theorem C34_cycle_partial (o : FloatOps F) (C : Consts F P) (hco : C.Coherent) (hdem : ∀ k, (C.expr k).Demands o)
    (k : Nat) (hk : k < C.n) (hcyc : Relation.TransGen C.Refers k k) (order : List Nat) (horder : ∀ k, k ∈ order ↔ k < C.n) :
    ∃ out st, evaluateConsts o C (C.n + 1) order (CStates.start o) = some (out, st) ∧ out ≠ .ok := by
  obtain ⟨⟨out, st⟩, _, h⟩ := C34_terminates o C order (fun k hk => (horder k).mp hk) (C.n + 1) (by omega)
  refine ⟨out, st, h, ?_⟩
  rintro rfl
  exact (C34_sound_partial o C hco (.inr hdem) _ order horder st h k hk).2.not_cyclic hcyc

/-! ## When the evaluation succeeds -/

theorem evalTree_pure {S : Type} (o : FloatOps F) (h : Text → S → Option (Ans F × S)) (Q : S → Prop) (env : Text → Ans F)
    (e : Ex F) (hh : ∀ n ∈ e.names, ∀ s, Q s → ∀ a s', h n s = some (a, s') → a = env n ∧ Q s') :
    ∀ s, Q s → ∀ v s', evalTree o h e s = some (v, s') → v = fold o env e ∧ Q s' := by
  induction e with
  | leaf => intro s hs v s' he; simp only [evalTree, Option.some.injEq, Prod.mk.injEq] at he; exact ⟨he.1.symm, he.2 ▸ hs⟩
  | ref n =>
    intro s hs v s' he
    simp only [evalTree] at he
    split at he
    · cases he
    · rename_i a s1 h1
      obtain ⟨rfl, q⟩ := hh n (by simp [Ex.names]) s hs a s1 h1
      simp only [Option.some.injEq, Prod.mk.injEq] at he
      exact ⟨he.1.symm, he.2 ▸ q⟩
  | un op e ih =>
    intro s hs v s' he
    simp only [evalTree] at he
    split at he
    · cases he
    · rename_i x s1 h1
      obtain ⟨rfl, q⟩ := ih hh s hs x s1 h1
      simp only [fold]
      split at he <;> rename_i hx <;> simp only [Option.some.injEq, Prod.mk.injEq] at he
      · rw [if_pos hx]; exact ⟨he.1.symm, he.2 ▸ q⟩
      · rw [if_neg hx]; exact ⟨he.1.symm, he.2 ▸ q⟩
  | bin op a b iha ihb =>
    intro s hs v s' he
    have iha := iha (fun n hn => hh n (by simp [Ex.names, hn]))
    have ihb := ihb (fun n hn => hh n (by simp [Ex.names, hn]))
    simp only [evalTree] at he
    split at he
    · cases he
    · rename_i x s1 h1
      obtain ⟨rfl, q⟩ := iha s hs x s1 h1
      simp only [fold]
      split at he <;> rename_i hx
      · simp only [Option.some.injEq, Prod.mk.injEq] at he
        rw [if_pos hx]; exact ⟨he.1.symm, he.2 ▸ q⟩
      · rw [if_neg hx]
        split at he
        · cases he
        · rename_i y s2 h2
          obtain ⟨rfl, q⟩ := ihb s1 q y s2 h2
          split at he <;> rename_i hy <;> simp only [Option.some.injEq, Prod.mk.injEq] at he
          · rw [if_pos hy]; exact ⟨he.1.symm, he.2 ▸ q⟩
          · rw [if_neg hy]; exact ⟨he.1.symm, he.2 ▸ q⟩
  | tern c a b ihc iha ihb =>
    intro s hs v s' he
    have ihc := ihc (fun n hn => hh n (by simp [Ex.names, hn]))
    have iha := iha (fun n hn => hh n (by simp [Ex.names, hn]))
    have ihb := ihb (fun n hn => hh n (by simp [Ex.names, hn]))
    simp only [evalTree] at he
    split at he
    · cases he
    · rename_i x s1 h1
      obtain ⟨rfl, q⟩ := ihc s hs x s1 h1
      simp only [fold]
      split at he <;> rename_i hx
      · simp only [Option.some.injEq, Prod.mk.injEq] at he
        rw [if_pos hx]; exact ⟨he.1.symm, he.2 ▸ q⟩
      · rw [if_neg hx]
        split at he
        · cases he
        · rename_i y s2 h2
          obtain ⟨rfl, q⟩ := iha s1 q y s2 h2
          split at he <;> rename_i hy
          · simp only [Option.some.injEq, Prod.mk.injEq] at he
            rw [if_pos hy]; exact ⟨he.1.symm, he.2 ▸ q⟩
          · rw [if_neg hy]
            split at he
            · cases he
            · rename_i z s3 h3
              obtain ⟨rfl, q⟩ := ihb s2 q z s3 h3
              split at he <;> rename_i hz <;> simp only [Option.some.injEq, Prod.mk.injEq] at he
              · rw [if_pos hz]; exact ⟨he.1.symm, he.2 ▸ q⟩
              · rw [if_neg hz]; exact ⟨he.1.symm, he.2 ▸ q⟩

/-- All completed constants have their value, and `S` are the constants under way. -/
def ConstGood (o : FloatOps F) (C : Consts F P) (S : Nat → Prop) (st : CStates F) : Prop :=
  (∀ j, (st j).status = .inProgress → S j) ∧ ∀ k, (st k).status = .complete → Denotes o C k (st k).res

theorem visit_good (o : FloatOps F) (C : Consts F P) (hco : C.Coherent) (p : P) (k : Nat) (r : Res F) (hd : Denotes o C k r) :
    ∀ fuel st out st' (S : Nat → Prop), visitConst o C p fuel k st = some (out, st') → C.ReadIn p k →
      (∀ j, S j → Relation.TransGen C.Refers j k) → ConstGood o C S st →
      out = .ok ∧ ConstGood o C S st' ∧ (st' k).status = .complete ∧ (st' k).res = r := by
  have hd0 := hd
  induction hd with
  | mk k vals r full hv hf ih =>
    intro fuel st out st' S h hread hS hgood
    cases fuel with
    | zero => simp [visitConst] at h
    | succ fuel =>
      simp only [visitConst] at h
      split at h
      · rename_i hk
        simp only [Option.some.injEq, Prod.mk.injEq] at h
        obtain ⟨rfl, rfl⟩ := h
        exact ⟨rfl, hgood, hk, (hgood.2 k hk).unique hd0⟩
      · rename_i hk
        exact absurd (hS k (hgood.1 k hk)) hd0.not_cyclic
      · rename_i hk
        split at h
        · cases h
        · rename_i v st1 htree
          have hgood0 : ConstGood o C (fun j => S j ∨ j = k) (st.set k ⟨.inProgress, Res.init o⟩) := by
            refine ⟨fun j hj => ?_, fun j hj => ?_⟩
            · by_cases e : j = k
              · exact .inr e
              · simp only [CStates.set, if_neg e] at hj; exact .inl (hgood.1 j hj)
            · by_cases e : j = k
              · simp [CStates.set, e] at hj
              · simp only [CStates.set, if_neg e] at hj ⊢; exact hgood.2 j hj
          have hS' : ∀ k', C.Refers k k' → ∀ j, S j ∨ j = k → Relation.TransGen C.Refers j k' := by
            intro k' hk' j hj
            rcases hj with hj | rfl
            · exact .tail (hS j hj) hk'
            · exact .single hk'
          obtain ⟨rfl, hgood1⟩ := evalTree_pure o (answer C p (visitConst o C p fuel))
            (ConstGood o C (fun j => S j ∨ j = k)) (C.env (C.home k) vals) (C.expr k) (by
              intro n hn s hs a s' ha
              have hlk := hco p k hread n hn
              simp only [answer, hlk] at ha
              simp only [Consts.env]
              cases hl : C.lookup (C.home k) n with
              | none =>
                rw [hl] at ha
                simp only [Option.some.injEq, Prod.mk.injEq] at ha
                exact ⟨ha.1.symm, ha.2 ▸ hs⟩
              | some k' =>
                rw [hl] at ha
                have href : C.Refers k k' := ⟨n, hn, hl⟩
                dsimp only at ha
                cases hvis : visitConst o C p fuel k' s with
                | none => rw [hvis] at ha; cases ha
                | some r' =>
                  obtain ⟨out', s2⟩ := r'
                  obtain ⟨rfl, g, gc, gr⟩ := ih k' href (hv k' href) fuel s out' s2 _ hvis
                    (.step k n k' hread hn (by rw [hlk]; exact hl)) (hS' k' href) hs
                  rw [hvis] at ha
                  simp only [Option.some.injEq, Prod.mk.injEq] at ha
                  rw [← ha.1, gr]
                  exact ⟨rfl, ha.2 ▸ g⟩) _ hgood0 _ _ htree
          rw [hf] at h
          simp only [Option.some.injEq, Prod.mk.injEq] at h
          obtain ⟨rfl, rfl⟩ := h
          refine ⟨rfl, ⟨fun j hj => ?_, fun j hj => ?_⟩, by simp [CStates.set], by simp [CStates.set]⟩
          · by_cases e : j = k
            · simp [CStates.set, e] at hj
            · simp only [CStates.set, if_neg e] at hj; exact (hgood1.1 j hj).resolve_right e
          · by_cases e : j = k
            · subst e; simp only [CStates.set, if_true]; exact hd0
            · simp only [CStates.set, if_neg e] at hj ⊢; exact hgood1.2 j hj

/-- **C34 (part).** If every constant has a value, the evaluation succeeds in every order. -/
theorem C34_complete_partial (o : FloatOps F) (C : Consts F P) (hco : C.Coherent) (hall : ∀ k < C.n, ∃ r, Denotes o C k r)
    (order : List Nat) (horder : ∀ k ∈ order, k < C.n) :
    ∃ st, evaluateConsts o C (C.n + 1) order (CStates.start o) = some (.ok, st) := by
  obtain ⟨⟨out, st⟩, _, h⟩ := C34_terminates o C order horder (C.n + 1) (by omega)
  have key : ∀ order st0 out st, (∀ k ∈ order, k < C.n) → ConstGood o C (fun _ => False) st0 →
      evaluateConsts o C (C.n + 1) order st0 = some (out, st) → out = .ok := by
    intro order
    induction order with
    | nil => intro st0 out st _ _ h; simp only [evaluateConsts, Option.some.injEq, Prod.mk.injEq] at h; exact h.1.symm
    | cons k ks ih =>
      intro st0 out st hn hg h
      obtain ⟨r, hr⟩ := hall k (hn k (by simp))
      simp only [evaluateConsts] at h
      cases hv : visitConst o C (C.home k) (C.n + 1) k st0 with
      | none => rw [hv] at h; cases h
      | some x =>
        obtain ⟨out', s1⟩ := x
        obtain ⟨rfl, g, _, _⟩ := visit_good o C hco (C.home k) k r hr _ _ _ _ _ hv (.own k (hn k (by simp)) rfl)
          (fun _ h => h.elim) hg
        rw [hv] at h
        exact ih s1 out st (fun j hj => hn j (by simp [hj])) g h
  obtain rfl := key order _ out st horder
    ⟨fun j hj => by simp [CStates.start] at hj, fun j hj => by simp [CStates.start] at hj⟩ h
  exact ⟨st, h⟩

/-- **C34 (part).** The order in which the constants are taken does not matter: whether the evaluation succeeds and the values. -/
theorem C34_order_partial (o : FloatOps F) (C : Consts F P) (hco : C.Coherent)
    (h : C.Acyclic ∨ ∀ k, (C.expr k).Demands o) (order order' : List Nat) (ho : ∀ k, k ∈ order ↔ k < C.n)
    (ho' : ∀ k, k ∈ order' ↔ k < C.n) (st : CStates F)
    (hok : evaluateConsts o C (C.n + 1) order (CStates.start o) = some (.ok, st)) :
    ∃ st', evaluateConsts o C (C.n + 1) order' (CStates.start o) = some (.ok, st') ∧ ∀ k < C.n, st' k = st k := by
  have h1 := C34_sound_partial o C hco h _ order ho st hok
  obtain ⟨st', h2⟩ := C34_complete_partial o C hco (fun k hk => ⟨_, (h1 k hk).2⟩) order' (fun k hk => (ho' k).mp hk)
  refine ⟨st', h2, fun k hk => ?_⟩
  have h3 := C34_sound_partial o C hco h _ order' ho' st' h2 k hk
  have h4 := h1 k hk
  have e1 : (st' k).status = (st k).status := by rw [h3.1, h4.1]
  have e2 := h3.2.unique h4.2
  cases hx : st' k
  cases hy : st k
  rw [hx, hy] at e1 e2
  simp only at e1 e2
  rw [e1, e2]

/-! ## Which expressions fail when a type is missing -/

/-- First component: a missing type makes the expression fail or is passed on. Second: it makes it fail. -/
def Ex.guard : Ex F → Bool × Bool
  | .leaf r _ _ => (r.ty.isSome, r.ty.isSome)
  | .ref _ => (true, false)
  | .un .paren e => e.guard
  | .un _ e => (e.guard.1, e.guard.1)
  | .bin op a b =>
    if op ∈ [BOp.lt, .le, .gt, .ge, .eq, .ne] then
      let x := (a.guard.2 && b.guard.1) || (a.guard.1 && b.guard.2)
      (x, x)
    else (a.guard.1 && b.guard.1, a.guard.1 && b.guard.1)
  | .tern c a b => (c.guard.1 && a.guard.2 && b.guard.2, c.guard.1 && a.guard.2 && b.guard.2)

theorem evalUn_ty (o : FloatOps F) (op : UnOp) (x : Res F) (h : (evalUn o op x).1 = .ok) :
    (op = .paren → (evalUn o op x).2.ty = x.ty) ∧ (op ≠ .paren → x.ty ≠ none ∧ (evalUn o op x).2.ty ≠ none) := by
  cases op <;> simp only [evalUn] at h ⊢ <;> (try split at h) <;> simp_all <;> (try split) <;> simp_all <;>
    (intro hn; simp_all)

theorem evalArith_ty (o : FloatOps F) (op : BOp) (x y : Res F) (full : Bool) (h : (evalArith o op x y full).out = .ok) :
    x.ty ≠ none ∧ y.ty ≠ none ∧ (evalArith o op x y full).res.ty ≠ none := by
  unfold evalArith at h ⊢
  split at h
  · rename_i h1
    rw [if_pos h1]
    split at h
    · rename_i h2; rw [if_pos h2]; simp [h1]
    · simp at h
  · rename_i h1
    rw [if_neg h1]
    split at h
    · rename_i h2
      rw [if_pos h2]
      split at h
      · simp at h
      · split at h
        · simp at h
        · simp [h2]
    · rename_i h2
      rw [if_neg h2]
      split at h
      · rename_i h3
        rw [if_pos h3]
        have hx : x.ty ≠ none ∧ y.ty ≠ none := by rcases h3 with h3 | h3 | h3 <;> simp [h3]
        split at h
        · simp at h
        · split at h
          · simp at h
          · exact ⟨hx.1, hx.2, by simp⟩
      · simp at h

theorem evalLogical_ty (o : FloatOps F) (op : BOp) (x y : Res F) (h : (evalLogical o op x y).1 = .ok) :
    x.ty ≠ none ∧ y.ty ≠ none ∧ (evalLogical o op x y).2.ty ≠ none := by
  unfold evalLogical at h ⊢
  split at h
  · simp at h
  · rename_i h1
    rw [if_neg h1]
    simp only [ne_eq, not_or, not_not] at h1
    cases op <;> simp_all

theorem evalCompare_ty (o : FloatOps F) (op : BOp) (x y : Res F) (h : (evalCompare o op x y).1 = .ok) :
    (x.ty = none ↔ y.ty = none) ∧ (evalCompare o op x y).2.ty ≠ none := by
  unfold evalCompare at h ⊢
  split at h
  · simp at h
  · rename_i h1
    rw [if_neg h1]
    have hxy : x.ty = none ↔ y.ty = none := by
      constructor
      · intro hx
        by_contra hy
        exact h1 ⟨fun e => hy (e ▸ hx), by simp [hx], by simp [hx], by simp [hx], by simp [hx]⟩
      · intro hy
        by_contra hx
        exact h1 ⟨fun e => hx (e ▸ hy), by simp [hy], by simp [hy], by simp [hy], by simp [hy]⟩
    refine ⟨hxy, ?_⟩
    split
    · cases op <;> simp
    · split
      · cases op <;> simp
      · split
        · cases op <;> simp
        · simp

theorem evalBitwise_ty (o : FloatOps F) (op : BOp) (x y : Res F) (h : (evalBitwise o op x y).1 = .ok) :
    x.ty ≠ none ∧ y.ty ≠ none ∧ (evalBitwise o op x y).2.ty ≠ none := by
  unfold evalBitwise at h ⊢
  split at h
  · simp at h
  · rename_i h1
    rw [if_neg h1]
    have hx : x.ty ≠ none ∧ y.ty ≠ none := by
      constructor <;> (intro hn; apply h1; simp [hn])
    split at h
    · simp at h
    · exact ⟨hx.1, hx.2, hx.1⟩

theorem evalIsSet_ty (o : FloatOps F) (x y : Res F) (h : (evalIsSet o x y).1 = .ok) :
    x.ty ≠ none ∧ y.ty ≠ none ∧ (evalIsSet o x y).2.ty ≠ none := by
  unfold evalIsSet at h ⊢
  split at h
  · simp at h
  · rename_i h1
    rw [if_neg h1]
    simp only [ne_eq, not_or, not_not] at h1
    simp [h1]

theorem evalBin_ty (o : FloatOps F) (op : BOp) (x y : Res F) (full : Bool) (h : (evalBin o op x y full).out = .ok) :
    (op ∈ [BOp.lt, .le, .gt, .ge, .eq, .ne] → (x.ty = none ↔ y.ty = none) ∧ (evalBin o op x y full).res.ty ≠ none) ∧
    (op ∉ [BOp.lt, .le, .gt, .ge, .eq, .ne] → x.ty ≠ none ∧ y.ty ≠ none ∧ (evalBin o op x y full).res.ty ≠ none) := by
  cases op <;> simp only [evalBin] at h ⊢
  case add | sub | mul | div | mod => exact ⟨fun h => absurd h (by decide), fun _ => evalArith_ty o _ x y full h⟩
  case shl | shr | band | bor | bxor => exact ⟨fun h => absurd h (by decide), fun _ => evalBitwise_ty o _ x y h⟩
  case land | lor => exact ⟨fun h => absurd h (by decide), fun _ => evalLogical_ty o _ x y h⟩
  case isset => exact ⟨fun h => absurd h (by decide), fun _ => evalIsSet_ty o x y h⟩
  case lt | le | gt | ge | eq | ne => exact ⟨fun _ => evalCompare_ty o _ x y h, fun h => absurd (by decide) h⟩

/-- The types of all constants in an expression are there. -/
def AllTyped (env : Text → Ans F) (e : Ex F) : Prop := ∀ n ∈ e.names, ∀ r, env n = .found r → r.ty ≠ none

theorem guard_spec (o : FloatOps F) (env : Text → Ans F) (e : Ex F) (hok : (fold o env e).out = .ok) :
    (e.guard.1 = true → (fold o env e).res.ty ≠ none → AllTyped env e) ∧
    (e.guard.2 = true → (fold o env e).res.ty ≠ none ∧ AllTyped env e) := by
  induction e with
  | leaf r full ok =>
    have : AllTyped env (.leaf r full ok) := fun n hn => by simp [Ex.names] at hn
    refine ⟨fun _ _ => this, fun h => ⟨?_, this⟩⟩
    simp only [Ex.guard] at h
    simp only [fold]
    intro hn; rw [hn] at h; simp at h
  | ref n =>
    refine ⟨fun _ h => ?_, fun h => by simp [Ex.guard] at h⟩
    intro m hm r hr
    simp only [Ex.names, List.mem_singleton] at hm
    subst hm
    simpa [fold, hr, ansVal] using h
  | un op e ih =>
    have hx : (fold o env e).out = .ok := by
      by_contra hx
      simp only [fold, if_pos hx] at hok
      exact hx hok
    have hfold : fold o env (.un op e) = ⟨(evalUn o op (fold o env e).res).1, (evalUn o op (fold o env e).res).2, (fold o env e).full⟩ := by
      simp [fold, hx]
    rw [hfold] at hok ⊢
    obtain ⟨t1, t2⟩ := evalUn_ty o op _ hok
    have ih := ih hx
    by_cases hp : op = .paren
    · subst hp
      simp only [Ex.guard]
      rw [show (evalUn o UnOp.paren (fold o env e).res).2.ty = _ from t1 rfl]
      exact ih
    · have hg : Ex.guard (.un op e) = (e.guard.1, e.guard.1) := by cases op <;> first | rfl | exact absurd rfl hp
      rw [hg]
      exact ⟨fun h _ => ih.1 h (t2 hp).1, fun h => ⟨(t2 hp).2, ih.1 h (t2 hp).1⟩⟩
  | bin op a b iha ihb =>
    have hx : (fold o env a).out = .ok := by
      by_contra hx
      simp only [fold, if_pos hx] at hok
      exact hx hok
    have hy : (fold o env b).out = .ok := by
      by_contra hy
      simp only [fold, hx, ne_eq, not_true, if_false, if_pos hy] at hok
      exact hy hok
    have hfold : fold o env (.bin op a b) = evalBin o op (fold o env a).res (fold o env b).res ((fold o env a).full && (fold o env b).full) := by
      simp [fold, hx, hy]
    rw [hfold] at hok ⊢
    obtain ⟨t1, t2⟩ := evalBin_ty o op _ _ _ hok
    have iha := iha hx
    have ihb := ihb hy
    have join : AllTyped env a → AllTyped env b → AllTyped env (.bin op a b) := by
      intro h1 h2 n hn
      rcases List.mem_append.mp hn with hn | hn
      · exact h1 n hn
      · exact h2 n hn
    by_cases hp : op ∈ [BOp.lt, .le, .gt, .ge, .eq, .ne]
    · obtain ⟨e1, e2⟩ := t1 hp
      have main : ((a.guard.2 && b.guard.1) || (a.guard.1 && b.guard.2)) = true → AllTyped env (.bin op a b) := by
        intro h
        simp only [Bool.or_eq_true, Bool.and_eq_true] at h
        rcases h with ⟨h1, h2⟩ | ⟨h1, h2⟩
        · have := iha.2 h1
          exact join this.2 (ihb.1 h2 (fun hn => this.1 (e1.mpr hn)))
        · have := ihb.2 h2
          exact join (iha.1 h1 (fun hn => this.1 (e1.mp hn))) this.2
      simp only [Ex.guard, if_pos hp]
      exact ⟨fun h _ => main h, fun h => ⟨e2, main h⟩⟩
    · obtain ⟨e1, e2, e3⟩ := t2 hp
      have main : (a.guard.1 && b.guard.1) = true → AllTyped env (.bin op a b) := by
        intro h
        simp only [Bool.and_eq_true] at h
        exact join (iha.1 h.1 e1) (ihb.1 h.2 e2)
      simp only [Ex.guard, if_neg hp]
      exact ⟨fun h _ => main h, fun h => ⟨e3, main h⟩⟩
  | tern c a b ihc iha ihb =>
    have hx : (fold o env c).out = .ok := by
      by_contra hx
      simp only [fold, if_pos hx] at hok
      exact hx hok
    have hy : (fold o env a).out = .ok := by
      by_contra hy
      simp only [fold, hx, ne_eq, not_true, if_false, if_pos hy] at hok
      exact hy hok
    have hz : (fold o env b).out = .ok := by
      by_contra hz
      simp only [fold, hx, hy, ne_eq, not_true, if_false, if_pos hz] at hok
      exact hz hok
    have hfold : (fold o env (.tern c a b)).out = (evalTern o (fold o env c).res (fold o env a).res (fold o env b).res).1 ∧
        (fold o env (.tern c a b)).res = (evalTern o (fold o env c).res (fold o env a).res (fold o env b).res).2 := by
      simp [fold, hx, hy, hz]
    rw [hfold.1] at hok
    rw [hfold.2]
    have hc : (fold o env c).res.ty = some .bool := by
      by_contra hc
      simp only [evalTern, ne_eq, hc, not_false_eq_true, if_true] at hok
      cases hok
    have main : (c.guard.1 && a.guard.2 && b.guard.2) = true →
        (evalTern o (fold o env c).res (fold o env a).res (fold o env b).res).2.ty ≠ none ∧ AllTyped env (.tern c a b) := by
      intro h
      simp only [Bool.and_eq_true] at h
      have h1 := (ihc hx).1 h.1.1 (by rw [hc]; simp)
      have h2 := (iha hy).2 h.1.2
      have h3 := (ihb hz).2 h.2
      refine ⟨?_, ?_⟩
      · simp only [evalTern, hc, ne_eq, not_true, if_false]
        split
        · exact h2.1
        · exact h3.1
      · intro n hn
        simp only [Ex.names, List.mem_append] at hn
        rcases hn with (hn | hn) | hn
        · exact h1 n hn
        · exact h2.2 n hn
        · exact h3.2 n hn
    simp only [Ex.guard]
    exact ⟨fun h _ => (main h).2, main⟩

/-- Every expression fails on a missing type if between a name and the top there is an operator other than parentheses, and
comparisons and the branches of `?:` get no bare names on both sides. -/
theorem demands_of_guard (o : FloatOps F) (e : Ex F) (h : e.guard.2 = true) : e.Demands o :=
  fun env hok => ((guard_spec o env e hok).2 h).2

/-! ## Cases, and counterexamples -/

/-- Some operations, for examples without floating point numbers. -/
def noFloats : FloatOps Unit := ⟨(), (), fun _ _ => (), fun _ _ => (), fun _ _ => (), fun _ _ => (), fun _ => (), fun _ _ => false, fun _ _ => false⟩

/-- An integer literal. -/
def Ex.int (n : Nat) : Ex Unit := .leaf { Res.init noFloats with ty := some .integer, i := BitVec.ofNat 64 n } true true

/-- Constants of one package, named `a`, `b`, ... -/
def oneScope (es : List (Ex Unit)) : Consts Unit Unit where
  n := es.length
  expr k := es.getD k (.int 0)
  home _ := ()
  lookup _ n := match n with
    | [c] => if c.toNat - 'a'.toNat < es.length then some (c.toNat - 'a'.toNat) else none
    | _ => none
  lookup_lt := by
    intro p n k h
    split at h
    · split at h
      · obtain rfl := Option.some.inj h; assumption
      · cases h
    · cases h

theorem oneScope_coherent (es : List (Ex Unit)) : (oneScope es).Coherent := fun _ _ _ _ _ => rfl

/-- `a = b + 1; b = 2 * 3;` -/
def twoConsts : Consts Unit Unit := oneScope [.bin .add (.ref ['b']) (.int 1), .bin .mul (.int 2) (.int 3)]

theorem twoConsts_ok : ∃ st, evaluateConsts noFloats twoConsts 3 [0, 1] (CStates.start noFloats) = some (.ok, st)
    ∧ (st 0).res.i = 7#64 := ⟨_, rfl, rfl⟩

example : ∃ st', evaluateConsts noFloats twoConsts 3 [1, 0] (CStates.start noFloats) = some (.ok, st')
    ∧ (st' 0).res.i = 7#64 ∧ Denotes noFloats twoConsts 0 (st' 0).res := by
  obtain ⟨st, h1, h2⟩ := twoConsts_ok
  have hac : twoConsts.Acyclic ∨ ∀ k, (twoConsts.expr k).Demands noFloats := by
    refine .inr (fun k => demands_of_guard _ _ ?_)
    match k with
    | 0 => rfl
    | 1 => rfl
    | _ + 2 => rfl
  have hm : ∀ k, k ∈ [0, 1] ↔ k < twoConsts.n := by
    intro k; simp only [List.mem_cons, List.not_mem_nil, or_false, twoConsts, oneScope, List.length_cons, List.length_nil]; omega
  have hm' : ∀ k, k ∈ [1, 0] ↔ k < twoConsts.n := by
    intro k; simp only [List.mem_cons, List.not_mem_nil, or_false, twoConsts, oneScope, List.length_cons, List.length_nil]; omega
  obtain ⟨st', h3, h4⟩ := C34_order_partial noFloats twoConsts (oneScope_coherent _) hac [0, 1] [1, 0] hm hm' st h1
  refine ⟨st', h3, by rw [h4 0 (by decide)]; exact h2, ?_⟩
  exact (C34_sound_partial noFloats twoConsts (oneScope_coherent _) hac _ _ hm' st' h3 0 (by decide)).2

/-- `a = b + 1; b = a + 1;` is reported. -/
example : ∃ out st, evaluateConsts noFloats (oneScope [.bin .add (.ref ['b']) (.int 1), .bin .add (.ref ['a']) (.int 1)]) 3 [0, 1]
    (CStates.start noFloats) = some (out, st) ∧ out ≠ .ok :=
  C34_cycle_partial noFloats _ (oneScope_coherent _)
    (fun k => demands_of_guard _ _ (by
      match k with
      | 0 => rfl
      | 1 => rfl
      | _ + 2 => rfl)) 0 (by decide)
    (.tail (.single ⟨['b'], by simp [oneScope, Ex.names], rfl⟩) ⟨['a'], by simp [oneScope, Ex.names], rfl⟩) [0, 1]
    (by intro k; simp only [List.mem_cons, List.not_mem_nil, or_false, oneScope, List.length_cons, List.length_nil]; omega)

/-- **C34, violated.** `a = b; b = a;` is not reported: the evaluation succeeds, and both constants are complete without a type
and a value. -/
theorem C34_violated_cycle : let C := oneScope [.ref ['b'], .ref ['a']]
    Relation.TransGen C.Refers 0 0 ∧ ∃ st, evaluateConsts noFloats C 3 [0, 1] (CStates.start noFloats) = some (.ok, st)
      ∧ (st 0).status = .complete ∧ (st 0).res.ty = none ∧ (st 1).res.ty = none :=
  ⟨.tail (.single ⟨['b'], by simp [oneScope, Ex.names], rfl⟩) ⟨['a'], by simp [oneScope, Ex.names], rfl⟩,
    _, rfl, rfl, rfl, rfl⟩

/-- Package `false` has `a = b; b = 1;`, package `true` imports `a` and has `b = 2; c = a;`. -/
def twoPackages : Consts Unit Bool where
  n := 4
  expr k := [.ref ['b'], .int 1, .int 2, .ref ['a']].getD k (.int 0)
  home k := decide (2 ≤ k)
  lookup p n :=
    if n = ['a'] then some 0
    else if n = ['b'] then some (if p then 2 else 1)
    else if n = ['c'] ∧ p then some 3 else none
  lookup_lt := by
    intro p n k h
    split at h
    · obtain rfl := Option.some.inj h; decide
    · split at h
      · obtain rfl := Option.some.inj h; split <;> decide
      · split at h
        · obtain rfl := Option.some.inj h; decide
        · cases h

/-- **C34, violated.** The expression of an imported constant is read with the names of the importing package, if that package
comes first: the value of `a` is 1 in one order and 2 in another, although nothing is cyclic. -/
theorem C34_violated_packages : twoPackages.Acyclic ∧
    (∃ st, evaluateConsts noFloats twoPackages 5 [0, 1, 2, 3] (CStates.start noFloats) = some (.ok, st) ∧ (st 0).res.i = 1#64) ∧
    (∃ st, evaluateConsts noFloats twoPackages 5 [2, 3, 0, 1] (CStates.start noFloats) = some (.ok, st) ∧ (st 0).res.i = 2#64) := by
  refine ⟨⟨fun k => if k = 3 then 2 else if k = 0 then 1 else 0, ?_⟩, ⟨_, rfl, rfl⟩, ⟨_, rfl, rfl⟩⟩
  rintro k k' ⟨n, hn, hl⟩
  match k with
  | 0 =>
    simp only [twoPackages, List.getD_cons_zero, Ex.names, List.mem_singleton] at hn
    subst hn
    simp [twoPackages] at hl
    subst hl; decide
  | 1 => simp [twoPackages, Ex.int, Ex.names] at hn
  | 2 => simp [twoPackages, Ex.int, Ex.names] at hn
  | 3 =>
    simp only [twoPackages, List.getD_cons_zero, List.getD_cons_succ, Ex.names, List.mem_singleton] at hn
    subst hn
    simp [twoPackages] at hl
    subst hl; decide
  | k + 4 => simp [twoPackages, Ex.int, Ex.names] at hn

end Verif
