import Verif.Fold
import Mathlib.Logic.Relation

/-!
# Laws of the evaluation of constants
-/

namespace Verif

variable {F P : Type}

/-- The names of constants in an expression. -/
def Ex.names : Ex F → List Text
  | .leaf _ _ _ => []
  | .ref n => [n]
  | .un _ e => e.names
  | .bin _ a b => a.names ++ b.names
  | .tern c a b => c.names ++ a.names ++ b.names

theorem fold_congr (o : FloatOps F) (env env' : Text → Ans F) (e : Ex F) (h : ∀ n ∈ e.names, env n = env' n) :
    fold o env e = fold o env' e := by
  induction e with
  | leaf => rfl
  | ref n => simp [fold, h n (by simp [Ex.names])]
  | un op e ih => simp [fold, ih h]
  | bin op a b iha ihb =>
    simp [fold, iha (fun n hn => h n (by simp [Ex.names, hn])), ihb (fun n hn => h n (by simp [Ex.names, hn]))]
  | tern c a b ihc iha ihb =>
    simp [fold, ihc (fun n hn => h n (by simp [Ex.names, hn])), iha (fun n hn => h n (by simp [Ex.names, hn])),
      ihb (fun n hn => h n (by simp [Ex.names, hn]))]

/-- Entries that are not `notStarted` stay as they are. -/
def Frame (st st' : CStates F) : Prop := ∀ j, (st j).status ≠ .notStarted → st' j = st j

theorem Frame.refl (st : CStates F) : Frame st st := fun _ _ => rfl

theorem Frame.trans {a b c : CStates F} (h1 : Frame a b) (h2 : Frame b c) : Frame a c := by
  intro j hj
  rw [h2 j (by rw [h1 j hj]; exact hj), h1 j hj]

/-- A relation on states that holds for every step of the handler holds for the evaluation of a tree. -/
theorem evalTree_rel {S : Type} (o : FloatOps F) (h : Text → S → Option (Ans F × S)) (R : S → S → Prop)
    (hrefl : ∀ s, R s s) (htrans : ∀ a b c, R a b → R b c → R a c)
    (e : Ex F) (hh : ∀ n ∈ e.names, ∀ s a s', h n s = some (a, s') → R s s') :
    ∀ s v s', evalTree o h e s = some (v, s') → R s s' := by
  induction e with
  | leaf => intro s v s' he; simp [evalTree] at he; rw [← he.2]; exact hrefl s
  | ref n =>
    intro s v s' he
    simp only [evalTree] at he
    split at he
    · cases he
    · rename_i a s1 h1
      simp only [Option.some.injEq, Prod.mk.injEq] at he
      rw [← he.2]; exact hh n (by simp [Ex.names]) s a s1 h1
  | un op e ih =>
    intro s v s' he
    simp only [evalTree] at he
    split at he
    · cases he
    · rename_i x s1 h1
      have := ih hh s x s1 h1
      split at he <;> simp only [Option.some.injEq, Prod.mk.injEq] at he <;> rw [← he.2] <;> exact this
  | bin op a b iha ihb =>
    intro s v s' he
    have iha := iha (fun n hn => hh n (by simp [Ex.names, hn]))
    have ihb := ihb (fun n hn => hh n (by simp [Ex.names, hn]))
    simp only [evalTree] at he
    split at he
    · cases he
    · rename_i x s1 h1
      have r1 := iha s x s1 h1
      split at he
      · simp only [Option.some.injEq, Prod.mk.injEq] at he; rw [← he.2]; exact r1
      · split at he
        · cases he
        · rename_i y s2 h2
          have r2 := htrans _ _ _ r1 (ihb s1 y s2 h2)
          split at he <;> simp only [Option.some.injEq, Prod.mk.injEq] at he <;> rw [← he.2] <;> exact r2
  | tern c a b ihc iha ihb =>
    intro s v s' he
    have ihc := ihc (fun n hn => hh n (by simp [Ex.names, hn]))
    have iha := iha (fun n hn => hh n (by simp [Ex.names, hn]))
    have ihb := ihb (fun n hn => hh n (by simp [Ex.names, hn]))
    simp only [evalTree] at he
    split at he
    · cases he
    · rename_i x s1 h1
      have r1 := ihc s x s1 h1
      split at he
      · simp only [Option.some.injEq, Prod.mk.injEq] at he; rw [← he.2]; exact r1
      · split at he
        · cases he
        · rename_i y s2 h2
          have r2 := htrans _ _ _ r1 (iha s1 y s2 h2)
          split at he
          · simp only [Option.some.injEq, Prod.mk.injEq] at he; rw [← he.2]; exact r2
          · split at he
            · cases he
            · rename_i z s3 h3
              have r3 := htrans _ _ _ r2 (ihb s2 z s3 h3)
              split at he <;> simp only [Option.some.injEq, Prod.mk.injEq] at he <;> rw [← he.2] <;> exact r3

/-- A tree evaluates if the handler always answers and keeps a property of the state. -/
theorem evalTree_total {S : Type} (o : FloatOps F) (h : Text → S → Option (Ans F × S)) (Q : S → Prop)
    (hh : ∀ n s, Q s → ∃ a s', h n s = some (a, s') ∧ Q s') (e : Ex F) :
    ∀ s, Q s → ∃ v s', evalTree o h e s = some (v, s') ∧ Q s' := by
  induction e with
  | leaf => intro s hs; exact ⟨_, _, rfl, hs⟩
  | ref n =>
    intro s hs
    obtain ⟨a, s', h1, h2⟩ := hh n s hs
    exact ⟨_, _, by simp only [evalTree, h1]; rfl, h2⟩
  | un op e ih =>
    intro s hs
    obtain ⟨x, s1, h1, q1⟩ := ih s hs
    by_cases hx : x.out ≠ .ok
    · exact ⟨_, _, by simp only [evalTree, h1, if_pos hx]; rfl, q1⟩
    · exact ⟨_, _, by simp only [evalTree, h1, if_neg hx]; rfl, q1⟩
  | bin op a b iha ihb =>
    intro s hs
    obtain ⟨x, s1, h1, q1⟩ := iha s hs
    by_cases hx : x.out ≠ .ok
    · exact ⟨_, _, by simp only [evalTree, h1, if_pos hx]; rfl, q1⟩
    · obtain ⟨y, s2, h2, q2⟩ := ihb s1 q1
      by_cases hy : y.out ≠ .ok
      · exact ⟨_, _, by simp only [evalTree, h1, if_neg hx, h2, if_pos hy]; rfl, q2⟩
      · exact ⟨_, _, by simp only [evalTree, h1, if_neg hx, h2, if_neg hy]; rfl, q2⟩
  | tern c a b ihc iha ihb =>
    intro s hs
    obtain ⟨x, s1, h1, q1⟩ := ihc s hs
    by_cases hx : x.out ≠ .ok
    · exact ⟨_, _, by simp only [evalTree, h1, if_pos hx]; rfl, q1⟩
    · obtain ⟨y, s2, h2, q2⟩ := iha s1 q1
      by_cases hy : y.out ≠ .ok
      · exact ⟨_, _, by simp only [evalTree, h1, if_neg hx, h2, if_pos hy]; rfl, q2⟩
      · obtain ⟨z, s3, h3, q3⟩ := ihb s2 q2
        by_cases hz : z.out ≠ .ok
        · exact ⟨_, _, by simp only [evalTree, h1, if_neg hx, h2, if_neg hy, h3, if_pos hz]; rfl, q3⟩
        · exact ⟨_, _, by simp only [evalTree, h1, if_neg hx, h2, if_neg hy, h3, if_neg hz]; rfl, q3⟩

/-- Evaluating a constant only changes constants that have not been started. -/
theorem visit_frame (o : FloatOps F) (C : Consts F P) (p : P) :
    ∀ fuel k st out st', visitConst o C p fuel k st = some (out, st') → Frame st st' := by
  intro fuel
  induction fuel with
  | zero => intro k st out st' h; simp [visitConst] at h
  | succ fuel ih =>
    intro k st out st' h
    simp only [visitConst] at h
    split at h
    · simp only [Option.some.injEq, Prod.mk.injEq] at h; rw [← h.2]; exact Frame.refl _
    · simp only [Option.some.injEq, Prod.mk.injEq] at h; rw [← h.2]; exact Frame.refl _
    · rename_i hk
      split at h
      · cases h
      · rename_i v st1 htree
        have hf : Frame (st.set k ⟨.inProgress, Res.init o⟩) st1 := by
          refine evalTree_rel o _ Frame Frame.refl (fun _ _ _ => Frame.trans) _ ?_ _ _ _ htree
          intro n _ s a s' hs
          simp only [answer] at hs
          split at hs
          · simp only [Option.some.injEq, Prod.mk.injEq] at hs; rw [← hs.2]; exact Frame.refl _
          · split at hs
            · cases hs
            · rename_i hv
              simp only [Option.some.injEq, Prod.mk.injEq] at hs
              rw [← hs.2]; exact ih _ _ _ _ hv
            · rename_i _ hv
              simp only [Option.some.injEq, Prod.mk.injEq] at hs
              rw [← hs.2]; exact ih _ _ _ _ hv
        have hf2 : ∀ c, Frame st (st1.set k c) := by
          intro c j hj
          have hjk : j ≠ k := fun e => hj (e ▸ hk)
          have := hf j (by simpa [CStates.set, hjk] using hj)
          simpa [CStates.set, hjk] using this
        have hf3 : Frame st st1 := by
          intro j hj
          have hjk : j ≠ k := fun e => hj (e ▸ hk)
          have := hf j (by simpa [CStates.set, hjk] using hj)
          simpa [CStates.set, hjk] using this
        split at h <;> simp only [Option.some.injEq, Prod.mk.injEq] at h <;> rw [← h.2]
        · exact hf2 _
        · exact hf2 _
        · exact hf3

theorem answer_frame (o : FloatOps F) (C : Consts F P) (p : P) (fuel : Nat) (n : Text) (s : CStates F) (a : Ans F) (s' : CStates F)
    (hs : answer C p (visitConst o C p fuel) n s = some (a, s')) : Frame s s' := by
  simp only [answer] at hs
  split at hs
  · simp only [Option.some.injEq, Prod.mk.injEq] at hs; rw [← hs.2]; exact Frame.refl _
  · split at hs
    · cases hs
    · rename_i hv
      simp only [Option.some.injEq, Prod.mk.injEq] at hs
      rw [← hs.2]; exact visit_frame _ _ _ _ _ _ _ _ hv
    · rename_i _ hv
      simp only [Option.some.injEq, Prod.mk.injEq] at hs
      rw [← hs.2]; exact visit_frame _ _ _ _ _ _ _ _ hv

/-- A visited constant has been started, unless there was a panic. -/
theorem visit_started (o : FloatOps F) (C : Consts F P) (p : P) (fuel k : Nat) (st : CStates F) (out : Out) (st' : CStates F)
    (h : visitConst o C p fuel k st = some (out, st')) (hp : out ≠ .panic) : (st' k).status ≠ .notStarted := by
  cases fuel with
  | zero => simp [visitConst] at h
  | succ fuel =>
    simp only [visitConst] at h
    split at h
    · rename_i hk; simp only [Option.some.injEq, Prod.mk.injEq] at h; rw [← h.2, hk]; simp
    · rename_i hk; simp only [Option.some.injEq, Prod.mk.injEq] at h; rw [← h.2, hk]; simp
    · split at h
      · cases h
      · split at h <;> simp only [Option.some.injEq, Prod.mk.injEq] at h <;> rw [← h.2]
        · simp [CStates.set]
        · simp [CStates.set]
        · exact absurd h.1.symm hp

/-- What the names of a package stand for in a state. -/
def Consts.env (C : Consts F P) (p : P) (vals : Nat → Res F) (name : Text) : Ans F :=
  match C.lookup p name with
  | none => .missing
  | some k => .found (vals k)

def CStates.vals (st : CStates F) : Nat → Res F := fun k => (st k).res

/-- All names of an expression have been started. -/
def Started (C : Consts F P) (p : P) (e : Ex F) (st : CStates F) : Prop :=
  ∀ n ∈ e.names, ∀ k, C.lookup p n = some k → (st k).status ≠ .notStarted

theorem env_frame (C : Consts F P) (p : P) (e : Ex F) (st st' : CStates F) (hs : Started C p e st) (hf : Frame st st') :
    ∀ n ∈ e.names, C.env p st.vals n = C.env p st'.vals n := by
  intro n hn
  simp only [Consts.env]
  split
  · rfl
  · rename_i k hk
    simp only [CStates.vals, hf k (hs n hn k hk)]

theorem Started.frame {C : Consts F P} {p : P} {e : Ex F} {st st' : CStates F} (hs : Started C p e st) (hf : Frame st st') :
    Started C p e st' := by
  intro n hn k hk
  rw [hf k (hs n hn k hk)]; exact hs n hn k hk

/-- The evaluation of a tree with constants is the evaluation with the values that the constants have afterwards. -/
theorem evalTree_fold (o : FloatOps F) (C : Consts F P) (p : P) (fuel : Nat) (e : Ex F) :
    ∀ st v st', evalTree o (answer C p (visitConst o C p fuel)) e st = some (v, st') → v.out ≠ .panic →
      fold o (C.env p st'.vals) e = v ∧ (v.out = .ok → Started C p e st') := by
  have fr : ∀ (e : Ex F) st v st', evalTree o (answer C p (visitConst o C p fuel)) e st = some (v, st') → Frame st st' :=
    fun e => evalTree_rel o _ Frame Frame.refl (fun _ _ _ => Frame.trans) e (fun n _ => answer_frame o C p fuel n)
  induction e with
  | leaf r full ok =>
    intro st v st' h hp
    simp only [evalTree, Option.some.injEq, Prod.mk.injEq] at h
    exact ⟨by rw [← h.1]; rfl, fun _ n hn => by simp [Ex.names] at hn⟩
  | ref n =>
    intro st v st' h hp
    simp only [evalTree] at h
    split at h
    · cases h
    · rename_i a s1 h1
      simp only [Option.some.injEq, Prod.mk.injEq] at h
      obtain ⟨rfl, rfl⟩ := h
      simp only [answer] at h1
      cases hl : C.lookup p n with
      | none =>
        rw [hl] at h1
        simp only [Option.some.injEq, Prod.mk.injEq] at h1
        obtain ⟨rfl, rfl⟩ := h1
        refine ⟨by simp [fold, Consts.env, hl], fun h => by simp [ansVal] at h⟩
      | some k =>
        rw [hl] at h1
        dsimp only at h1
        cases hv : visitConst o C p fuel k st with
        | none => rw [hv] at h1; cases h1
        | some r =>
          obtain ⟨out, s2⟩ := r
          rw [hv] at h1
          have hfound : out ≠ .panic → a = .found (s2 k).res ∧ s2 = s1 := by
            intro ho
            cases out
            · simp only [Option.some.injEq, Prod.mk.injEq] at h1; exact ⟨h1.1.symm, h1.2⟩
            · simp only [Option.some.injEq, Prod.mk.injEq] at h1; exact ⟨h1.1.symm, h1.2⟩
            · exact absurd rfl ho
          by_cases ho : out = .panic
          · subst ho
            simp only [Option.some.injEq, Prod.mk.injEq] at h1
            rw [← h1.1] at hp
            exact absurd rfl hp
          · obtain ⟨rfl, rfl⟩ := hfound ho
            refine ⟨by simp [fold, Consts.env, hl, CStates.vals], fun _ => ?_⟩
            intro m hm k' hk'
            simp only [Ex.names, List.mem_singleton] at hm
            subst hm
            rw [hl] at hk'
            obtain rfl := Option.some.inj hk'
            exact visit_started o C p fuel _ st out _ hv ho
  | un op e ih =>
    intro st v st' h hp
    simp only [evalTree] at h
    split at h
    · cases h
    · rename_i x s1 h1
      split at h
      · rename_i hx
        simp only [Option.some.injEq, Prod.mk.injEq] at h
        obtain ⟨rfl, rfl⟩ := h
        obtain ⟨i1, _⟩ := ih st x s1 h1 hp
        refine ⟨by simp only [fold, i1, if_pos hx], fun h => absurd h hx⟩
      · rename_i hx
        simp only [Option.some.injEq, Prod.mk.injEq] at h
        obtain ⟨rfl, rfl⟩ := h
        obtain ⟨i1, i2⟩ := ih st x s1 h1 (by simp only [ne_eq, not_not] at hx; rw [hx]; simp)
        refine ⟨by simp only [fold, i1, if_neg hx], fun _ => i2 (not_not.mp hx)⟩
  | bin op a b iha ihb =>
    intro st v st' h hp
    simp only [evalTree] at h
    split at h
    · cases h
    · rename_i x s1 h1
      split at h
      · rename_i hx
        simp only [Option.some.injEq, Prod.mk.injEq] at h
        obtain ⟨rfl, rfl⟩ := h
        obtain ⟨i1, _⟩ := iha st x s1 h1 hp
        refine ⟨by simp only [fold, i1, if_pos hx], fun h => absurd h hx⟩
      · rename_i hx
        obtain ⟨i1, i2⟩ := iha st x s1 h1 (by simp only [ne_eq, not_not] at hx; rw [hx]; simp)
        have i2 := i2 (not_not.mp hx)
        split at h
        · cases h
        · rename_i y s2 h2
          have hf := fr b s1 y s2 h2
          rw [fold_congr o _ _ a (env_frame C p a s1 s2 i2 hf)] at i1
          split at h
          · rename_i hy
            simp only [Option.some.injEq, Prod.mk.injEq] at h
            obtain ⟨rfl, rfl⟩ := h
            obtain ⟨j1, _⟩ := ihb s1 y s2 h2 hp
            refine ⟨by simp only [fold, i1, if_neg hx, j1, if_pos hy], fun h => absurd h hy⟩
          · rename_i hy
            obtain ⟨j1, j2⟩ := ihb s1 y s2 h2 (by simp only [ne_eq, not_not] at hy; rw [hy]; simp)
            simp only [Option.some.injEq, Prod.mk.injEq] at h
            obtain ⟨rfl, rfl⟩ := h
            refine ⟨by simp only [fold, i1, if_neg hx, j1, if_neg hy], fun _ => ?_⟩
            have j2 := j2 (not_not.mp hy)
            intro n hn
            rcases List.mem_append.mp hn with hn | hn
            · exact i2.frame hf n hn
            · exact j2 n hn
  | tern c a b ihc iha ihb =>
    intro st v st' h hp
    simp only [evalTree] at h
    split at h
    · cases h
    · rename_i x s1 h1
      split at h
      · rename_i hx
        simp only [Option.some.injEq, Prod.mk.injEq] at h
        obtain ⟨rfl, rfl⟩ := h
        obtain ⟨i1, _⟩ := ihc st x s1 h1 hp
        refine ⟨by simp only [fold, i1, if_pos hx], fun h => absurd h hx⟩
      · rename_i hx
        obtain ⟨i1, i2⟩ := ihc st x s1 h1 (by simp only [ne_eq, not_not] at hx; rw [hx]; simp)
        have i2 := i2 (not_not.mp hx)
        split at h
        · cases h
        · rename_i y s2 h2
          have hf := fr a s1 y s2 h2
          split at h
          · rename_i hy
            simp only [Option.some.injEq, Prod.mk.injEq] at h
            obtain ⟨rfl, rfl⟩ := h
            rw [fold_congr o _ _ c (env_frame C p c s1 s2 i2 hf)] at i1
            obtain ⟨j1, _⟩ := iha s1 y s2 h2 hp
            refine ⟨by simp only [fold, i1, if_neg hx, j1, if_pos hy], fun h => absurd h hy⟩
          · rename_i hy
            obtain ⟨j1, j2⟩ := iha s1 y s2 h2 (by simp only [ne_eq, not_not] at hy; rw [hy]; simp)
            have j2 := j2 (not_not.mp hy)
            split at h
            · cases h
            · rename_i z s3 h3
              have hg := fr b s2 z s3 h3
              rw [fold_congr o _ _ c (env_frame C p c s1 s3 i2 (hf.trans hg))] at i1
              rw [fold_congr o _ _ a (env_frame C p a s2 s3 j2 hg)] at j1
              split at h
              · rename_i hz
                simp only [Option.some.injEq, Prod.mk.injEq] at h
                obtain ⟨rfl, rfl⟩ := h
                obtain ⟨k1, _⟩ := ihb s2 z s3 h3 hp
                refine ⟨by simp only [fold, i1, if_neg hx, j1, if_neg hy, k1, if_pos hz], fun h => absurd h hz⟩
              · rename_i hz
                obtain ⟨k1, k2⟩ := ihb s2 z s3 h3 (by simp only [ne_eq, not_not] at hz; rw [hz]; simp)
                simp only [Option.some.injEq, Prod.mk.injEq] at h
                obtain ⟨rfl, rfl⟩ := h
                refine ⟨by simp only [fold, i1, if_neg hx, j1, if_neg hy, k1, if_neg hz], fun _ => ?_⟩
                have k2 := k2 (not_not.mp hz)
                intro n hn
                rcases List.mem_append.mp hn with hn | hn
                · rcases List.mem_append.mp hn with hn | hn
                  · exact i2.frame (hf.trans hg) n hn
                  · exact j2.frame hg n hn
                · exact k2 n hn

/-! ## Termination -/

/-- The number of constants that have not been started. -/
def Consts.left (C : Consts F P) (st : CStates F) : Nat :=
  ((List.range C.n).filter fun k => decide ((st k).status = .notStarted)).length

theorem left_mono (C : Consts F P) (st st' : CStates F) (h : ∀ k, (st' k).status = .notStarted → (st k).status = .notStarted) :
    C.left st' ≤ C.left st := by
  unfold Consts.left
  apply List.Sublist.length_le
  apply List.monotone_filter_right
  intro k hk
  simp only [decide_eq_true_eq] at hk ⊢
  exact h k hk

theorem left_set (C : Consts F P) (st : CStates F) (k : Nat) (c : CState F) (hk : k < C.n) (hs : (st k).status = .notStarted)
    (hc : c.status ≠ .notStarted) : C.left (st.set k c) < C.left st := by
  unfold Consts.left
  have key : ((List.range C.n).filter fun j => decide ((st.set k c j).status = .notStarted))
      = ((List.range C.n).filter fun j => decide ((st j).status = .notStarted)).filter (fun j => decide (j ≠ k)) := by
    rw [List.filter_filter]
    apply List.filter_congr
    intro j _
    by_cases h : j = k
    · simp [CStates.set, h, hc]
    · simp [CStates.set, h]
  rw [key]
  apply List.length_filter_lt_length_iff_exists.mpr
  exact ⟨k, by simp [hk, hs], by simp⟩

theorem Frame.left {C : Consts F P} {st st' : CStates F} (h : Frame st st') : C.left st' ≤ C.left st := by
  apply left_mono
  intro k hk
  by_contra hn
  rw [h k hn] at hk
  exact hn hk

theorem visit_total (o : FloatOps F) (C : Consts F P) (p : P) :
    ∀ fuel k st, k < C.n → C.left st < fuel → ∃ out st', visitConst o C p fuel k st = some (out, st') := by
  intro fuel
  induction fuel with
  | zero => intro k st _ h; omega
  | succ fuel ih =>
    intro k st hk hl
    simp only [visitConst]
    cases hs : (st k).status with
    | complete => exact ⟨_, _, rfl⟩
    | inProgress => exact ⟨_, _, rfl⟩
    | notStarted =>
      dsimp only
      have h0 := left_set C st k ⟨.inProgress, Res.init o⟩ hk hs (by simp)
      obtain ⟨v, s1, h1, _⟩ := evalTree_total o (answer C p (visitConst o C p fuel)) (fun s => C.left s < fuel) (by
        intro n s hs
        simp only [answer]
        cases hlk : C.lookup p n with
        | none => exact ⟨_, _, rfl, hs⟩
        | some j =>
          obtain ⟨out, s', hv⟩ := ih j s (C.lookup_lt p n j hlk) hs
          have hfr := (visit_frame o C p fuel j s out s' hv).left (C := C)
          simp only [hv]
          cases out
          · exact ⟨_, _, rfl, by omega⟩
          · exact ⟨_, _, rfl, by omega⟩
          · exact ⟨_, _, rfl, by omega⟩) (C.expr k) (st.set k ⟨.inProgress, Res.init o⟩) (by omega)
      rw [h1]
      cases hv : v.out <;> exact ⟨_, _, by simp only [hv]; rfl⟩

theorem evaluate_total (o : FloatOps F) (C : Consts F P) (fuel : Nat) :
    ∀ (order : List Nat) (st : CStates F), (∀ k ∈ order, k < C.n) → C.left st < fuel →
      ∃ out st', evaluateConsts o C fuel order st = some (out, st') := by
  intro order
  induction order with
  | nil => intro st _ _; exact ⟨_, _, rfl⟩
  | cons k ks ih =>
    intro st hk hl
    obtain ⟨out, s1, h1⟩ := visit_total o C (C.home k) fuel k st (hk k (by simp)) hl
    have hfr := (visit_frame o C (C.home k) fuel k st out s1 h1).left (C := C)
    simp only [evaluateConsts, h1]
    cases out
    · exact ih s1 (fun j hj => hk j (by simp [hj])) (by omega)
    · exact ⟨_, _, rfl⟩
    · exact ⟨_, _, rfl⟩

end Verif
