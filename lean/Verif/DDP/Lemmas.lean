import Verif.DDP.Model

/-!
# Basic facts about the DDP model (any arithmetic)
-/

namespace Nmpc.DDP

set_option linter.unusedSectionVars false

variable {α : Type} [Add α] [Sub α] [Mul α] [Div α] [Neg α] [Zero α] [One α] [FOps α]
variable {n : ℕ} {m : ℕ → ℕ} {L : LLT α} {N : ℕ} {cfg : Config α} {S : Stages n m α}

/-! ## Frame conditions -/

/-- Two solver states with the same control data, derivatives and trace. -/
def SameFrame (s s' : Solver n m α) : Prop :=
  s'.ctrl = s.ctrl ∧ s'.derivs = s.derivs ∧ s'.trace = s.trace

theorem SameFrame.refl (s : Solver n m α) : SameFrame s s := ⟨rfl, rfl, rfl⟩

/-- Outcomes of one round of the regularisation loop. -/
inductive RoundOut (L : LLT α) (N : ℕ) (cfg : Config α) (S : Stages n m α) (s : Solver n m α) :
    Solver n m α ⊕ (Solver n m α × Res Bool) → Prop
  | success (b : BwState n m α) (h : backwardPass L N cfg S s = .ok (true, b)) :
      RoundOut L N cfg S s (.inr (s.setBw b, .ok true))
  | giveUp (b : BwState n m α) (h : backwardPass L N cfg S s = .ok (false, b))
      (hl : ltb cfg.lambdaMax ((s.setBw b).increase cfg).lambda = true) :
      RoundOut L N cfg S s (.inr ((s.setBw b).increase cfg, .ok false))
  | again (b : BwState n m α) (h : backwardPass L N cfg S s = .ok (false, b))
      (hl : ltb cfg.lambdaMax ((s.setBw b).increase cfg).lambda = false) :
      RoundOut L N cfg S s (.inl ((s.setBw b).increase cfg))
  | err (e : Res Bool) (he : ∀ b, e ≠ .ok b) (h : (backwardPass L N cfg S s).map Prod.fst = e) :
      RoundOut L N cfg S s (.inr (s, e))

theorem bwRound_out (s : Solver n m α) : RoundOut L N cfg S s (bwRound L N cfg S s) := by
  unfold bwRound
  split
  · rename_i b h
    exact .success b h
  · rename_i b h
    dsimp only
    split
    · rename_i h'
      exact .giveUp b h h'
    · rename_i h'
      exact .again b h (by simpa using h')
  all_goals
    rename_i h
    exact .err _ (by intro b hb; cases hb) (by rw [h]; rfl)

theorem increase_frame (s : Solver n m α) (b : BwState n m α) : SameFrame s ((s.setBw b).increase cfg) := ⟨rfl, rfl, rfl⟩

theorem SameFrame.trans {s s' s'' : Solver n m α} (h : SameFrame s s') (h' : SameFrame s' s'') : SameFrame s s'' :=
  ⟨h'.1.trans h.1, h'.2.1.trans h.2.1, h'.2.2.trans h.2.2⟩

/-- Induction rule for the regularisation loop. -/
theorem bwSearch_rule (I : Solver n m α → Prop) (Q : Solver n m α × Res Bool → Prop) {s : Solver n m α}
    (hs : I s) (hI : ∀ s b, I s → backwardPass L N cfg S s = .ok (false, b) →
      ltb cfg.lambdaMax ((s.setBw b).increase cfg).lambda = false → I ((s.setBw b).increase cfg))
    (hok : ∀ s b, I s → backwardPass L N cfg S s = .ok (true, b) → Q (s.setBw b, .ok true))
    (hgive : ∀ s b, I s → backwardPass L N cfg S s = .ok (false, b) →
      ltb cfg.lambdaMax ((s.setBw b).increase cfg).lambda = true → Q ((s.setBw b).increase cfg, .ok false))
    (herr : ∀ s e, I s → (∀ b, e ≠ .ok b) → (backwardPass L N cfg S s).map Prod.fst = e → Q (s, e))
    (hdiv : loopM (bwRound L N cfg S) s = none → Q (s, .diverge)) : Q (bwSearch L N cfg S s) := by
  unfold bwSearch
  cases h : loopM (bwRound L N cfg S) s with
  | none => exact hdiv h
  | some r =>
    refine loopM_invariant I Q ?_ ?_ hs h
    · intro s s' hs h
      have := bwRound_out (L := L) (N := N) (cfg := cfg) (S := S) s
      rw [h] at this
      cases this with
      | again b hb hl => exact hI s b hs hb hl
    · intro s r hs h
      have := bwRound_out (L := L) (N := N) (cfg := cfg) (S := S) s
      rw [h] at this
      cases this with
      | success b hb => exact hok s b hs hb
      | giveUp b hb hl => exact hgive s b hs hb hl
      | err e he hb => exact herr s e hs he hb

theorem bwSearch_frame (s : Solver n m α) : SameFrame s (bwSearch L N cfg S s).1 :=
  bwSearch_rule (SameFrame s) (fun r => SameFrame s r.1) (.refl s)
    (fun _ b h _ _ => h.trans (increase_frame _ b)) (fun _ _ h _ => h) (fun _ b h _ _ => h.trans (increase_frame _ b))
    (fun _ _ h _ _ => h) (fun _ => .refl s)

/-- If the loop leaves with a successful backward pass, this is the pass it used. -/
theorem bwSearch_ok {s s2 : Solver n m α} (h : bwSearch L N cfg S s = (s2, .ok true)) :
    ∃ s' b, SameFrame s s' ∧ backwardPass L N cfg S s' = .ok (true, b) ∧ s2 = s'.setBw b := by
  have := bwSearch_rule (L := L) (N := N) (cfg := cfg) (S := S) (s := s) (SameFrame s)
    (fun r => r.2 = .ok true → ∃ s' b, SameFrame s s' ∧ backwardPass L N cfg S s' = .ok (true, b) ∧ r.1 = s'.setBw b)
    (.refl s)
    (fun _ b h _ _ => h.trans (increase_frame _ b)) (fun s' b h hb _ => ⟨s', b, h, hb, rfl⟩)
    (fun _ b h _ _ => by simp) (fun _ e h he _ h' => absurd h' (he _)) (fun _ => by simp)
  rw [h] at this
  exact this rfl

/-! ## One iteration -/

/-- State handed to the backward pass. -/
def startIter (N : ℕ) (cfg : Config α) (S : Stages n m α) (iter : ℕ) (s : Solver n m α) : Solver n m α :=
  { s with trace := s.trace ++ [Trace.new iter], derivs := calcDerivs N cfg S s.ctrl s.derivs }

/-- Outcomes of one iteration. -/
inductive ProcOut (L : LLT α) (N : ℕ) (cfg : Config α) (S : Stages n m α) (iter : ℕ) (s : Solver n m α) :
    Solver n m α × Res ℤ → Prop
  | bwFail (s2 : Solver n m α) (hb : bwSearch L N cfg S (startIter N cfg S iter s) = (s2, .ok false)) :
      ProcOut L N cfg S iter s (s2, .ok (-1))
  | err (s2 : Solver n m α) (e : Res Bool) (he : ∀ b, e ≠ .ok b)
      (hb : bwSearch L N cfg S (startIter N cfg S iter s) = (s2, e)) :
      ProcOut L N cfg S iter s (s2, e.map fun _ => 0)
  | small (s2 : Solver n m α) (hb : bwSearch L N cfg S (startIter N cfg S iter s) = (s2, .ok true))
      (hk : ltb (kRelNorm N s2) cfg.kRelNormThre = true) (hl : ltb s2.lambda cfg.lambdaThre = true) :
      ProcOut L N cfg S iter s
        ({ s2 with trace := s.trace ++ [{ Trace.new iter with kRelNorm := kRelNorm N s2 }] }, .ok 1)
  | full (s2 : Solver n m α) (hb : bwSearch L N cfg S (startIter N cfg S iter s) = (s2, .ok true))
      (hk : ¬ (ltb (kRelNorm N s2) cfg.kRelNormThre = true ∧ ltb s2.lambda cfg.lambdaThre = true)) :
      ProcOut L N cfg S iter s
        (finishStep N cfg s.trace
          { Trace.new iter with
            kRelNorm := kRelNorm N s2
            alpha := (lineSearch N cfg S s2).alpha
            actual := (lineSearch N cfg S s2).actual
            expected := (lineSearch N cfg S s2).expected
            ratio := (lineSearch N cfg S s2).ratio } (lineSearch N cfg S s2) s2)

theorem procOnce_out (iter : ℕ) (s : Solver n m α) : ProcOut L N cfg S iter s (procOnce L N cfg S iter s) := by
  unfold procOnce
  dsimp only
  have hst : ({ s with trace := s.trace ++ [Trace.new iter], derivs := calcDerivs N cfg S s.ctrl s.derivs } : Solver n m α)
    = startIter N cfg S iter s := rfl
  rw [hst]
  split
  · rename_i s2 h
    exact .bwFail s2 h
  · rename_i s2 h
    exact .err s2 .invalidArgument (by simp) h
  · rename_i s2 h
    exact .err s2 .runtimeError (by simp) h
  · rename_i s2 h
    exact .err s2 .otherException (by simp) h
  · rename_i s2 h
    exact .err s2 .ub (by simp) h
  · rename_i s2 h
    exact .err s2 .diverge (by simp) h
  · rename_i s2 h
    split
    · rename_i hk
      rw [Bool.and_eq_true] at hk
      exact .small s2 h hk.1 hk.2
    · rename_i hk
      rw [Bool.and_eq_true] at hk
      exact .full s2 h hk

/-- Outcomes of accepting or rejecting the step. -/
inductive FinishOut (N : ℕ) (cfg : Config α) (pre : List (Trace α)) (tr : Trace α) (w : Fwd n m α)
    (s : Solver n m α) : Solver n m α × Res ℤ → Prop
  | accept (hs : w.success = true) (v : ℤ)
      (hv : v = if ltb w.actual cfg.costUpdateThre then 1 else 0) :
      FinishOut N cfg pre tr w s
        ({ ({ s with ctrl := w.cand } : Solver n m α).decrease cfg with
            trace := pre ++ [{ tr with
              cost := totalCost N w.cand
              lambda := (s.decrease cfg).lambda
              dlambda := (s.decrease cfg).dlambda }] }, .ok v)
  | reject (hs : w.success = false) (v : ℤ)
      (hv : v = if ltb cfg.lambdaMax (s.increase cfg).lambda then -1 else 0) :
      FinishOut N cfg pre tr w s
        ({ s.increase cfg with
            trace := pre ++ [{ tr with
              cost := totalCost N s.ctrl
              lambda := (s.increase cfg).lambda
              dlambda := (s.increase cfg).dlambda }] }, .ok v)

theorem finishStep_out (pre : List (Trace α)) (tr : Trace α) (w : Fwd n m α) (s : Solver n m α) :
    FinishOut N cfg pre tr w s (finishStep N cfg pre tr w s) := by
  unfold finishStep
  dsimp only
  cases h : w.success with
  | true => exact .accept h _ rfl
  | false => exact .reject h _ rfl

/-! ## Line search -/

theorem tryAlphas_spec (s : Solver n m α) (as : List α) (r : Fwd n m α) :
    (tryAlphas N cfg S s as r).success = true →
      r.success = true ∧ as = [] ∨ ∃ a ∈ as, tryAlphas N cfg S s as r = tryAlpha N cfg S s a := by
  induction as generalizing r with
  | nil => intro h; exact .inl ⟨h, rfl⟩
  | cons a as ih =>
    intro h
    right
    unfold tryAlphas at h ⊢
    dsimp only at h ⊢
    split at h
    · rename_i hs
      exact ⟨a, by simp, by rw [if_pos hs]⟩
    · rename_i hs
      rw [if_neg hs]
      rcases ih _ h with h1 | ⟨b, hb, h1⟩
      · exact absurd h1.1 hs
      · exact ⟨b, by simp [hb], h1⟩

/-- A successful line search returns the data of one of the step sizes. -/
theorem lineSearch_success {s : Solver n m α} (h : (lineSearch N cfg S s).success = true) :
    ∃ a ∈ cfg.alphaList, lineSearch N cfg S s = tryAlpha N cfg S s a := by
  rcases tryAlphas_spec s cfg.alphaList _ h with h1 | h1
  · cases h1.1
  · exact h1

/-! ## Optimisation loop -/

/-- Induction rule for the optimisation loop: `I k s` holds before iteration `k`. -/
theorem optLoop_rule (I : ℕ → Solver n m α → Prop) (Q : Solver n m α × Res ℤ → Prop) (r k : ℕ) {s : Solver n m α}
    (hs : I k s)
    (hI : ∀ j s s', k ≤ j → j < k + r → I j s → procOnce L N cfg S j s = (s', .ok 0) → I (j + 1) s')
    (hE : ∀ j s s' e, k ≤ j → j < k + r → I j s → procOnce L N cfg S j s = (s', e) → e ≠ .ok 0 → Q (s', e))
    (h0 : ∀ s, I (k + r) s → Q (s, .ok 0)) : Q (optLoop L N cfg S r k s) := by
  induction r generalizing k s with
  | zero => exact h0 s hs
  | succ r ih =>
    unfold optLoop
    split
    · rename_i s' v h
      split
      · rename_i hv
        exact hE k s s' _ (by omega) (by omega) hs h (by simpa using hv)
      · rename_i hv
        rw [not_not] at hv
        subst hv
        exact ih (k + 1) (hI k s s' (by omega) (by omega) hs h)
          (fun j s s' h1 h2 => hI j s s' (by omega) (by omega))
          (fun j s s' e h1 h2 => hE j s s' e (by omega) (by omega))
          (fun s h => h0 s (by rw [Nat.add_right_comm, Nat.add_assoc] at h; exact h))
    · rename_i s' e h hne
      exact hE k s s' _ (by omega) (by omega) hs hne (by rintro rfl; exact h 0 rfl)

/-! ## Rollouts -/

/-- Control data that satisfy the state equation and whose cost list is correct. -/
structure Consistent (N : ℕ) (S : Stages n m α) (x0 : Vec n α) (c : Ctrl n m α) : Prop where
  start : c.x 0 = x0
  step : ∀ i, i < N → c.x (i + 1) = S.f i (c.x i) (c.u i)
  run : ∀ i, i < N → c.cost i = S.l i (c.x i) (c.u i)
  term : c.cost N = S.φ (c.x N)

theorem rollout_consistent (x0 : Vec n α) (pol : (i : ℕ) → Vec n α → Vec (m i) α) :
    Consistent N S x0 (rollout N S x0 pol) where
  start := rfl
  step _ _ := rfl
  run i hi := by simp [rollout, hi]
  term := by simp [rollout]

theorem forwardPass_consistent {c : Ctrl n m α} {g : Gains n m α} {x0 : Vec n α} {a : α}
    (h : c.x 0 = x0) : Consistent N S x0 (forwardPass N S c g a) := h ▸ rollout_consistent _ _

/-- Control data after one iteration: unchanged, or the candidate of one of the step sizes. -/
theorem procOnce_ctrl (iter : ℕ) (s : Solver n m α) :
    (procOnce L N cfg S iter s).1.ctrl = s.ctrl ∨
      ∃ a ∈ cfg.alphaList, ∃ g, (procOnce L N cfg S iter s).1.ctrl = forwardPass N S s.ctrl g a := by
  have := procOnce_out (L := L) (N := N) (cfg := cfg) (S := S) iter s
  generalize procOnce L N cfg S iter s = r at this
  cases this with
  | bwFail s2 hb =>
    have := bwSearch_frame (L := L) (N := N) (cfg := cfg) (S := S) (startIter N cfg S iter s)
    rw [hb] at this; exact .inl this.1
  | err s2 e he hb =>
    have := bwSearch_frame (L := L) (N := N) (cfg := cfg) (S := S) (startIter N cfg S iter s)
    rw [hb] at this; exact .inl this.1
  | small s2 hb hk hl =>
    have := bwSearch_frame (L := L) (N := N) (cfg := cfg) (S := S) (startIter N cfg S iter s)
    rw [hb] at this; exact .inl this.1
  | full s2 hb hk =>
    have hf := bwSearch_frame (L := L) (N := N) (cfg := cfg) (S := S) (startIter N cfg S iter s)
    rw [hb] at hf
    have hc : s2.ctrl = s.ctrl := hf.1
    have := finishStep_out (N := N) (cfg := cfg) s.trace
      { Trace.new iter with
        kRelNorm := kRelNorm N s2
        alpha := (lineSearch N cfg S s2).alpha
        actual := (lineSearch N cfg S s2).actual
        expected := (lineSearch N cfg S s2).expected
        ratio := (lineSearch N cfg S s2).ratio } (lineSearch N cfg S s2) s2
    generalize finishStep N cfg s.trace _ (lineSearch N cfg S s2) s2 = q at this
    cases this with
    | accept hs v hv =>
      right
      obtain ⟨a, ha, h⟩ := lineSearch_success hs
      refine ⟨a, ha, s2.gains, ?_⟩
      show (lineSearch N cfg S s2).cand = _
      rw [h, ← hc]; rfl
    | reject hs v hv => exact .inl hc

end Nmpc.DDP
