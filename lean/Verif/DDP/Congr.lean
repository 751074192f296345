import Verif.DDP.Props

/-!
# C23, C24: what the result of `solve` depends on (any arithmetic)

One theorem (`solve_congr`): two runs whose callbacks agree on the time grid, started with arbitrary buffers, give the same
result.  `R` is the proposition "the derivative buffers are the same"; if it is `False` the derivative callbacks must
overwrite their outputs.
-/

namespace Nmpc.DDP

set_option linter.unusedSectionVars false

variable {α : Type} [Add α] [Sub α] [Mul α] [Div α] [Neg α] [Zero α] [One α] [FOps α]

section Rel
variable {n : ℕ} {m : ℕ → ℕ} {L : LLT α} {cfg : Config α} {N : ℕ} {S S' : Stages n m α} {R : Prop}

/-- The callbacks agree on the first `N` steps. -/
structure StagesAgree (R : Prop) (N : ℕ) (S S' : Stages n m α) : Prop where
  f : ∀ j < N, S.f j = S'.f j
  l : ∀ j < N, S.l j = S'.l j
  φ : S.φ = S'.φ
  df : ∀ j < N, ∀ x u b b', (R → b = b') → S.df j x u b = S'.df j x u b'
  df2 : ∀ j < N, ∀ x u b b', (R → b = b') → S.df2 j x u b = S'.df2 j x u b'
  dl : ∀ j < N, ∀ x u b b', (R → b = b') → S.dl j x u b = S'.dl j x u b'
  dφ : ∀ x b b', (R → b = b') → S.dφ x b = S'.dφ x b'
  lim : (S.lim = none ∧ S'.lim = none) ∨
    ∃ g g', S.lim = some g ∧ S'.lim = some g' ∧ ∀ j < N, g j = g' j

structure CtrlAgree (N : ℕ) (c c' : Ctrl n m α) : Prop where
  x : ∀ j ≤ N, c.x j = c'.x j
  u : ∀ j < N, c.u j = c'.u j
  cost : ∀ j ≤ N, c.cost j = c'.cost j

structure DerivsAgree (N : ℕ) (d d' : Derivs n m α) : Prop where
  F : ∀ j < N, d.F j = d'.F j
  L : ∀ j < N, d.L j = d'.L j
  V : d.V = d'.V

/-- Gains agree from step `i` on. -/
structure GainsAgree (i N : ℕ) (g g' : Gains n m α) : Prop where
  k : ∀ j, i ≤ j → j < N → g.k j = g'.k j
  K : ∀ j, i ≤ j → j < N → g.K j = g'.K j

structure SolverAgree (R : Prop) (N : ℕ) (s s' : Solver n m α) : Prop where
  lambda : s.lambda = s'.lambda
  dlambda : s.dlambda = s'.dlambda
  ctrl : CtrlAgree N s.ctrl s'.ctrl
  derivs : R → DerivsAgree N s.derivs s'.derivs
  trace : s.trace = s'.trace

theorem totalCost_agree {c c' : Ctrl n m α} (h : CtrlAgree N c c') : totalCost N c = totalCost N c' := by
  unfold totalCost
  congr 1
  funext i
  exact h.cost i (by omega)

theorem rollout_agree (hS : StagesAgree R N S S') {x0 x0' : Vec n α} {pol pol' : (i : ℕ) → Vec n α → Vec (m i) α}
    (h0 : x0 = x0') (hp : ∀ j < N, ∀ x, pol j x = pol' j x) :
    CtrlAgree N (rollout N S x0 pol) (rollout N S' x0' pol') := by
  have hx : ∀ j ≤ N, rollX S x0 pol j = rollX S' x0' pol' j := by
    intro j
    induction j with
    | zero => intro _; exact h0
    | succ j ih =>
      intro hj
      simp only [rollX]
      rw [hS.f j (by omega), hp j (by omega), ih (by omega)]
  refine ⟨hx, fun j hj => ?_, fun j hj => ?_⟩
  · simp only [rollout]
    rw [hp j hj, hx j (by omega)]
  · simp only [rollout]
    rcases Nat.lt_or_eq_of_le hj with h | rfl
    · rw [if_pos h, if_pos h, hS.l j h, hx j hj, hp j h]
    · rw [if_neg (lt_irrefl _), if_neg (lt_irrefl _), hS.φ, hx _ le_rfl]

theorem forwardPass_agree (hS : StagesAgree R N S S') {c c' : Ctrl n m α} {g g' : Gains n m α} (hc : CtrlAgree N c c')
    (hg : GainsAgree 0 N g g') (a : α) : CtrlAgree N (forwardPass N S c g a) (forwardPass N S' c' g' a) := by
  refine rollout_agree hS (hc.x 0 (by omega)) fun j hj x => ?_
  rw [hc.u j hj, hg.k j (by omega) hj, hg.K j (by omega) hj, hc.x j (by omega)]

theorem calcDerivs_agree (hS : StagesAgree R N S S') {c c' : Ctrl n m α} {d d' : Derivs n m α} (hc : CtrlAgree N c c')
    (hd : R → DerivsAgree N d d') : DerivsAgree N (calcDerivs N cfg S c d) (calcDerivs N cfg S' c' d') := by
  refine ⟨fun j hj => ?_, fun j hj => ?_, ?_⟩
  · simp only [calcDerivs, if_pos hj]
    rw [hc.x j hj.le, hc.u j hj, hS.df j hj _ _ _ _ (fun h => (hd h).F j hj), hS.df2 j hj _ _ _ _ (fun h => (hd h).F j hj)]
  · simp only [calcDerivs, if_pos hj]
    rw [hc.x j hj.le, hc.u j hj, hS.dl j hj _ _ _ _ (fun h => (hd h).L j hj)]
  · simp only [calcDerivs]
    rw [hc.x N le_rfl, hS.dφ _ _ _ (fun h => (hd h).V)]

theorem initialK_agree {g g' : Gains n m α} {i : ℕ} (hi : i < N) (hg : GainsAgree (i + 1) N g g') :
    initialK N g i = initialK N g' i := by
  unfold initialK
  split
  · rfl
  · split
    · rw [hg.k (i + 1) le_rfl (by omega)]
    · rfl

theorem stageGains_agree (hS : StagesAgree R N S S') {c c' : Ctrl n m α} (hc : CtrlAgree N c c') {g g' : Gains n m α} {i : ℕ}
    (hi : i < N) (hg : GainsAgree (i + 1) N g g') (Q : QData n (m i) α) :
    stageGains L N cfg S c g i Q = stageGains L N cfg S' c' g' i Q := by
  unfold stageGains
  split
  · split
    · rcases hS.lim with ⟨h1, h2⟩ | ⟨f, f', h1, h2, h3⟩
      · rw [h1, h2]
      · rw [h1, h2]
        dsimp only
        rw [h3 i hi, hc.u i hi, initialK_agree hi hg]
    · rfl
  · rfl

structure BwAgree (i N : ℕ) (b b' : BwState n m α) : Prop where
  V : b.V = b'.V
  dV0 : b.dV0 = b'.dV0
  dV1 : b.dV1 = b'.dV1
  gains : GainsAgree i N b.gains b'.gains

/-- Related outcomes of backward passes. -/
def BwRes (N : ℕ) (r r' : Res (Bool × BwState n m α)) : Prop :=
  (∃ b b', r = .ok (true, b) ∧ r' = .ok (true, b') ∧ BwAgree 0 N b b') ∨
  (∃ b b', r = .ok (false, b) ∧ r' = .ok (false, b')) ∨
  (∃ e : Res Bool, (∀ v, e ≠ .ok v) ∧ r = e.bind (fun _ => .ub) ∧ r' = e.bind (fun _ => .ub))

theorem bwLoop_agree (hS : StagesAgree R N S S') {c c' : Ctrl n m α} (hc : CtrlAgree N c c') {d d' : Derivs n m α}
    (hd : DerivsAgree N d d') (lambda : α) (i : ℕ) (hi : i ≤ N) {b b' : BwState n m α} (hb : BwAgree i N b b') :
    BwRes N (bwLoop L N cfg S c d lambda i b) (bwLoop L N cfg S' c' d' lambda i b') := by
  induction i generalizing b b' with
  | zero => exact .inl ⟨b, b', rfl, rfl, hb⟩
  | succ i ih =>
    unfold bwLoop bwStage
    by_cases h2 : cfg.useSecond = true
    · rw [if_pos h2, if_pos h2]
      exact .inr (.inr ⟨.runtimeError, by simp, rfl, rfl⟩)
    · rw [if_neg h2, if_neg h2]
      dsimp only
      rw [← stageGains_agree hS hc (by omega) hb.gains, hd.F i (by omega), hd.L i (by omega), hb.V]
      rcases hg : stageGains L N cfg S c b.gains i (calcQ cfg lambda (d'.F i) (d'.L i) b'.V) with r | _ | _ | _ | _ | _
      · cases r with
        | none => exact .inr (.inl ⟨_, _, rfl, rfl⟩)
        | some q =>
          simp only [Res.bind_ok, if_true]
          refine ih (by omega) ⟨rfl, by rw [hb.dV0], by rw [hb.dV1], ⟨?_, ?_⟩⟩
          · intro j h3 h4
            by_cases hj : j = i
            · subst hj; simp
            · dsimp only; rw [Function.update_of_ne hj, Function.update_of_ne hj, hb.gains.k j (by omega) h4]
          · intro j h3 h4
            by_cases hj : j = i
            · subst hj; simp
            · dsimp only; rw [Function.update_of_ne hj, Function.update_of_ne hj, hb.gains.K j (by omega) h4]
      · exact .inr (.inr ⟨.invalidArgument, by simp, rfl, rfl⟩)
      · exact .inr (.inr ⟨.runtimeError, by simp, rfl, rfl⟩)
      · exact .inr (.inr ⟨.otherException, by simp, rfl, rfl⟩)
      · exact .inr (.inr ⟨.ub, by simp, rfl, rfl⟩)
      · exact .inr (.inr ⟨.diverge, by simp, rfl, rfl⟩)

/-- States during the regularisation loop: the derivatives agree. -/
def BwSolver (N : ℕ) (s s' : Solver n m α) : Prop := SolverAgree True N s s'

/-- Related results of the regularisation loop. -/
def BwSearchRes (N : ℕ) (r r' : Solver n m α × Res Bool) : Prop :=
  r.2 = r'.2 ∧ BwSolver N r.1 r'.1 ∧
    (r.2 = .ok true → GainsAgree 0 N r.1.gains r'.1.gains ∧ r.1.dV0 = r'.1.dV0 ∧ r.1.dV1 = r'.1.dV1)

theorem increase_agree {s s' : Solver n m α} (h : SolverAgree R N s s') :
    SolverAgree R N (s.increase cfg) (s'.increase cfg) := by
  refine ⟨?_, ?_, h.ctrl, h.derivs, h.trace⟩ <;> simp only [Solver.increase, h.lambda, h.dlambda]

theorem decrease_agree {s s' : Solver n m α} (h : SolverAgree R N s s') :
    SolverAgree R N (s.decrease cfg) (s'.decrease cfg) := by
  refine ⟨?_, ?_, h.ctrl, h.derivs, h.trace⟩ <;> simp only [Solver.decrease, h.lambda, h.dlambda]

theorem setBw_agree {s s' : Solver n m α} (h : SolverAgree R N s s') (b b' : BwState n m α) :
    SolverAgree R N (s.setBw b) (s'.setBw b') := ⟨h.lambda, h.dlambda, h.ctrl, h.derivs, h.trace⟩

theorem bwRound_agree (hS : StagesAgree R N S S') {s s' : Solver n m α} (h : BwSolver N s s') :
    (∃ t t', bwRound L N cfg S s = .inl t ∧ bwRound L N cfg S' s' = .inl t' ∧ BwSolver N t t') ∨
    (∃ r r', bwRound L N cfg S s = .inr r ∧ bwRound L N cfg S' s' = .inr r' ∧ BwSearchRes N r r') := by
  have hb : BwRes N (backwardPass L N cfg S s) (backwardPass L N cfg S' s') := by
    unfold backwardPass
    rw [h.lambda]
    exact bwLoop_agree hS h.ctrl (h.derivs trivial) _ N le_rfl
      ⟨(h.derivs trivial).V, rfl, rfl, ⟨fun j h1 h2 => by omega, fun j h1 h2 => by omega⟩⟩
  unfold bwRound
  rcases hb with ⟨b, b', h1, h2, h3⟩ | ⟨b, b', h1, h2⟩ | ⟨e, he, h1, h2⟩
  · rw [h1, h2]
    exact .inr ⟨_, _, rfl, rfl, rfl, setBw_agree h _ _, fun _ => ⟨h3.gains, h3.dV0, h3.dV1⟩⟩
  · rw [h1, h2]
    have hi := increase_agree (cfg := cfg) (setBw_agree h b b')
    dsimp only
    rw [hi.lambda]
    split
    · exact .inr ⟨_, _, rfl, rfl, rfl, hi, by simp⟩
    · exact .inl ⟨_, _, rfl, rfl, hi⟩
  · rw [h1, h2]
    right
    cases e with
    | ok v => exact absurd rfl (he v)
    | _ => exact ⟨_, _, rfl, rfl, rfl, h, by simp⟩

theorem bwSearch_agree (hS : StagesAgree R N S S') {s s' : Solver n m α} (h : BwSolver N s s') :
    BwSearchRes N (bwSearch L N cfg S s) (bwSearch L N cfg S' s') := by
  unfold bwSearch
  rcases loopM_rel (BwSolver N) (BwSearchRes N)
    (fun s t hst => bwRound_agree (L := L) (cfg := cfg) hS hst) h with ⟨h1, h2⟩ | ⟨r, p, h1, h2, h3⟩
  · rw [h1, h2]; exact ⟨rfl, h, by simp⟩
  · rw [h1, h2]; exact h3

structure FwdAgree (N : ℕ) (w w' : Fwd n m α) : Prop where
  success : w.success = w'.success
  alpha : w.alpha = w'.alpha
  actual : w.actual = w'.actual
  expected : w.expected = w'.expected
  ratio : w.ratio = w'.ratio
  cand : CtrlAgree N w.cand w'.cand

theorem tryAlpha_agree (hS : StagesAgree R N S S') {s s' : Solver n m α} (h : CtrlAgree N s.ctrl s'.ctrl)
    (hg : GainsAgree 0 N s.gains s'.gains) (h0 : s.dV0 = s'.dV0) (h1 : s.dV1 = s'.dV1) (a : α) :
    FwdAgree N (tryAlpha N cfg S s a) (tryAlpha N cfg S' s' a) := by
  have hc := forwardPass_agree hS h hg a
  refine ⟨?_, rfl, ?_, ?_, ?_, hc⟩ <;> simp only [tryAlpha, totalCost_agree h, totalCost_agree hc, h0, h1]

theorem lineSearch_agree (hS : StagesAgree R N S S') {s s' : Solver n m α} (h : CtrlAgree N s.ctrl s'.ctrl)
    (hg : GainsAgree 0 N s.gains s'.gains) (h0 : s.dV0 = s'.dV0) (h1 : s.dV1 = s'.dV1) :
    FwdAgree N (lineSearch N cfg S s) (lineSearch N cfg S' s') := by
  unfold lineSearch
  have key : ∀ (as : List α) (w w' : Fwd n m α), FwdAgree N w w' →
      FwdAgree N (tryAlphas N cfg S s as w) (tryAlphas N cfg S' s' as w') := by
    intro as
    induction as with
    | nil => exact fun _ _ h => h
    | cons a as ih =>
      intro w w' _
      have ha := tryAlpha_agree (cfg := cfg) hS h hg h0 h1 a
      unfold tryAlphas
      dsimp only
      rw [ha.success]
      split
      · exact ha
      · exact ih _ _ ha
  exact key _ _ _ ⟨rfl, rfl, rfl, rfl, rfl, h⟩

theorem kRelNorm_agree {s s' : Solver n m α} (h : CtrlAgree N s.ctrl s'.ctrl)
    (hg : GainsAgree 0 N s.gains s'.gains) : kRelNorm N s = kRelNorm N s' := by
  unfold kRelNorm
  have : ∀ k ≤ N, forUp k (fun i a => fmax a (vnorm (s.gains.k i) / (vnorm (s.ctrl.u i) + 1))) 0 =
      forUp k (fun i a => fmax a (vnorm (s'.gains.k i) / (vnorm (s'.ctrl.u i) + 1))) 0 := by
    intro k
    induction k with
    | zero => intro _; rfl
    | succ k ih =>
      intro hk
      simp only [forUp]
      rw [ih (by omega), hg.k k (by omega) (by omega), h.u k (by omega)]
  exact this N le_rfl

theorem finishStep_agree {pre : List (Trace α)} {tr : Trace α} {w w' : Fwd n m α} {s s' : Solver n m α}
    (hs : SolverAgree R N s s') (hw : FwdAgree N w w') :
    (finishStep N cfg pre tr w s).2 = (finishStep N cfg pre tr w' s').2 ∧
      SolverAgree R N (finishStep N cfg pre tr w s).1 (finishStep N cfg pre tr w' s').1 := by
  unfold finishStep
  dsimp only
  rw [hw.success]
  split
  · have hd := decrease_agree (cfg := cfg) (R := R) (N := N) (s := { s with ctrl := w.cand })
      (s' := { s' with ctrl := w'.cand }) ⟨hs.lambda, hs.dlambda, hw.cand, hs.derivs, hs.trace⟩
    refine ⟨by rw [hw.actual], hd.lambda, hd.dlambda, hd.ctrl, hd.derivs, ?_⟩
    dsimp only
    rw [totalCost_agree hd.ctrl, hd.lambda, hd.dlambda]
  · have hd := increase_agree (cfg := cfg) hs
    refine ⟨by dsimp only; rw [hd.lambda], hd.lambda, hd.dlambda, hd.ctrl, hd.derivs, ?_⟩
    dsimp only
    rw [totalCost_agree hd.ctrl, hd.lambda, hd.dlambda]

theorem procOnce_agree (hS : StagesAgree R N S S') (iter : ℕ) {s s' : Solver n m α} (h : SolverAgree R N s s') :
    (procOnce L N cfg S iter s).2 = (procOnce L N cfg S' iter s').2 ∧
      SolverAgree R N (procOnce L N cfg S iter s).1 (procOnce L N cfg S' iter s').1 := by
  have h1 : BwSolver N (startIter N cfg S iter s) (startIter N cfg S' iter s') :=
    ⟨h.lambda, h.dlambda, h.ctrl, fun _ => calcDerivs_agree hS h.ctrl h.derivs, by simp [startIter, h.trace]⟩
  have h2 := bwSearch_agree (L := L) (cfg := cfg) hS h1
  unfold procOnce
  dsimp only
  rw [show ({ s with trace := s.trace ++ [Trace.new iter], derivs := calcDerivs N cfg S s.ctrl s.derivs } : Solver n m α)
    = startIter N cfg S iter s from rfl,
    show ({ s' with trace := s'.trace ++ [Trace.new iter], derivs := calcDerivs N cfg S' s'.ctrl s'.derivs } : Solver n m α)
    = startIter N cfg S' iter s' from rfl]
  generalize bwSearch L N cfg S (startIter N cfg S iter s) = r at h2
  generalize bwSearch L N cfg S' (startIter N cfg S' iter s') = r' at h2
  obtain ⟨s2, e⟩ := r
  obtain ⟨s2', e'⟩ := r'
  obtain ⟨h3, h4, h5⟩ := h2
  dsimp only at h3 h4 h5
  subst h3
  have h4' : SolverAgree R N s2 s2' := ⟨h4.lambda, h4.dlambda, h4.ctrl, fun _ => h4.derivs trivial, h4.trace⟩
  cases e with
  | ok v =>
    cases v with
    | false => exact ⟨rfl, h4'⟩
    | true =>
      obtain ⟨h6, h7, h8⟩ := h5 rfl
      dsimp only
      rw [← kRelNorm_agree h4.ctrl h6, ← h4.lambda]
      split
      · exact ⟨rfl, rfl, h4.dlambda, h4.ctrl, h4'.derivs, by rw [h.trace]⟩
      · have hw := lineSearch_agree (cfg := cfg) hS h4.ctrl h6 h7 h8
        rw [hw.alpha, hw.actual, hw.expected, hw.ratio, h.trace]
        exact finishStep_agree h4' hw
  | _ => exact ⟨rfl, h4'⟩

theorem optLoop_agree (hS : StagesAgree R N S S') (r iter : ℕ) {s s' : Solver n m α} (h : SolverAgree R N s s') :
    (optLoop L N cfg S r iter s).2 = (optLoop L N cfg S' r iter s').2 ∧
      SolverAgree R N (optLoop L N cfg S r iter s).1 (optLoop L N cfg S' r iter s').1 := by
  induction r generalizing iter s s' with
  | zero => exact ⟨rfl, h⟩
  | succ r ih =>
    have hp := procOnce_agree (L := L) (cfg := cfg) hS iter h
    unfold optLoop
    generalize procOnce L N cfg S iter s = q at hp
    generalize procOnce L N cfg S' iter s' = q' at hp
    obtain ⟨t, e⟩ := q
    obtain ⟨t', e'⟩ := q'
    obtain ⟨h1, h2⟩ := hp
    dsimp only at h1 h2
    subst h1
    cases e with
    | ok v =>
      dsimp only
      split
      · exact ⟨rfl, h2⟩
      · exact ih _ h2
    | _ => exact ⟨rfl, h2⟩

theorem out_agree {c c' : Ctrl n m α} (h : CtrlAgree N c c') : c.out N = c'.out N := by
  simp only [Ctrl.out, ControlData.mk.injEq]
  refine ⟨?_, ?_, ?_⟩
  · exact List.map_congr_left fun i hi => h.x i (by have := List.mem_range.1 hi; omega)
  · exact List.map_congr_left fun i hi => by rw [h.u i (List.mem_range.1 hi)]
  · exact List.map_congr_left fun i hi => h.cost i (by have := List.mem_range.1 hi; omega)

end Rel

variable {n : ℕ} {md : α → ℕ} {P P' : Callbacks n md} {L : LLT α} {cfg : Config α}
  {lim lim' : Option ((t : α) → Vec (md t) α × Vec (md t) α)}
  {dt t0 : α} {o o' : Obj n α} {x0 : Vec n α} {us : List (Σ k : ℕ, Vec k α)}
  {scratch scratch' : Scratch n (fun i => md (timeAt t0 dt i)) α}

/-- The two runs return the same, and if the arguments are valid they leave the same data behind. -/
theorem solve_congr (R : Prop) (hS : StagesAgree R us.length (stagesOf P lim t0 dt us.length) (stagesOf P' lim' t0 dt us.length))
    (hd : R → DerivsAgree us.length scratch.derivs scratch'.derivs) :
    (solve L P lim dt cfg o t0 scratch x0 us).2 = (solve L P' lim' dt cfg o' t0 scratch' x0 us).2 ∧
    ((us.length : ℤ) = cfg.horizon → DimsOk md t0 dt us →
      (solve L P lim dt cfg o t0 scratch x0 us).1 = (solve L P' lim' dt cfg o' t0 scratch' x0 us).1) := by
  by_cases hN : (us.length : ℤ) = cfg.horizon
  swap
  · rw [solve_invalid_length hN, solve_invalid_length hN]; exact ⟨rfl, fun h => absurd h hN⟩
  by_cases hD : DimsOk md t0 dt us
  swap
  · rw [solve_invalid_dims hN hD, solve_invalid_dims hN hD]; exact ⟨rfl, fun _ h => absurd h hD⟩
  rw [solve_valid hN hD, solve_valid hN hD]
  have hc : CtrlAgree us.length (start P lim dt cfg t0 scratch x0 us).ctrl (start P' lim' dt cfg t0 scratch' x0 us).ctrl :=
    rollout_agree hS rfl (fun _ _ _ => rfl)
  have := optLoop_agree (L := L) (cfg := cfg) hS cfg.maxIter.toNat 1 (s := start P lim dt cfg t0 scratch x0 us)
    (s' := start P' lim' dt cfg t0 scratch' x0 us) ⟨rfl, rfl, hc, hd, by
      show [_] = [_]
      rw [show totalCost us.length (rollout us.length (stagesOf P lim t0 dt us.length) x0 _) = _ from totalCost_agree hc]
      rfl⟩
  refine ⟨congrArg (Res.map _) this.1, fun _ _ => ?_⟩
  show Obj.mk _ _ = Obj.mk _ _
  rw [out_agree this.2.ctrl, this.2.trace]

/-- The derivative callbacks overwrite their output arguments completely. -/
structure Callbacks.Overwrites (P : Callbacks n md) : Prop where
  stateEqDeriv : ∀ t x u b b', P.stateEqDeriv t x u b = P.stateEqDeriv t x u b'
  stateEqDeriv2 : ∀ t x u b b', P.stateEqDeriv2 t x u b = P.stateEqDeriv2 t x u b'
  runningCostDeriv : ∀ t x u b b', P.runningCostDeriv t x u b = P.runningCostDeriv t x u b'
  terminalCostDeriv : ∀ t x b b', P.terminalCostDeriv t x b = P.terminalCostDeriv t x b'

/-- **C23** If the derivative callbacks overwrite their outputs, the outcome of `solve` and (for valid arguments)
`controlData()` and `traceDataList()` do not depend on the state of the object before the call: neither on the previous
control data and trace (`o`), nor on any buffer contents (`scratch`) left over from earlier solves. -/
theorem C23_history (hP : P.Overwrites) (o o' : Obj n α) (scratch scratch' : Scratch n (fun i => md (timeAt t0 dt i)) α) :
    (solve L P lim dt cfg o t0 scratch x0 us).2 = (solve L P lim dt cfg o' t0 scratch' x0 us).2 ∧
    ((us.length : ℤ) = cfg.horizon → DimsOk md t0 dt us →
      (solve L P lim dt cfg o t0 scratch x0 us).1 = (solve L P lim dt cfg o' t0 scratch' x0 us).1) := by
  refine solve_congr False ⟨fun _ _ => rfl, fun _ _ => rfl, rfl, fun _ _ _ _ _ _ _ => hP.stateEqDeriv _ _ _ _ _,
    fun _ _ _ _ _ _ _ => hP.stateEqDeriv2 _ _ _ _ _, fun _ _ _ _ _ _ _ => hP.runningCostDeriv _ _ _ _ _,
    fun _ _ _ _ => hP.terminalCostDeriv _ _ _ _, ?_⟩ (fun h => h.elim)
  cases h : lim with
  | none => exact .inl ⟨rfl, rfl⟩
  | some g => exact .inr ⟨_, _, rfl, rfl, fun _ _ => rfl⟩

/-- Two problems (and limits functions) agree on the time grid of a solve: on `current_t + i * dt`, `i < N`, for everything
belonging to a stage and on `current_t + N * dt` for the terminal cost. -/
structure AgreeOnGrid (P P' : Callbacks n md) (lim lim' : Option ((t : α) → Vec (md t) α × Vec (md t) α)) (t0 dt : α)
    (N : ℕ) : Prop where
  stateEq : ∀ i < N, P.stateEq (t0 + lit (i : ℚ) * dt) = P'.stateEq (t0 + lit (i : ℚ) * dt)
  runningCost : ∀ i < N, P.runningCost (t0 + lit (i : ℚ) * dt) = P'.runningCost (t0 + lit (i : ℚ) * dt)
  terminalCost : P.terminalCost (t0 + lit (N : ℚ) * dt) = P'.terminalCost (t0 + lit (N : ℚ) * dt)
  stateEqDeriv : ∀ i < N, P.stateEqDeriv (t0 + lit (i : ℚ) * dt) = P'.stateEqDeriv (t0 + lit (i : ℚ) * dt)
  stateEqDeriv2 : ∀ i < N, P.stateEqDeriv2 (t0 + lit (i : ℚ) * dt) = P'.stateEqDeriv2 (t0 + lit (i : ℚ) * dt)
  runningCostDeriv : ∀ i < N, P.runningCostDeriv (t0 + lit (i : ℚ) * dt) = P'.runningCostDeriv (t0 + lit (i : ℚ) * dt)
  terminalCostDeriv : P.terminalCostDeriv (t0 + lit (N : ℚ) * dt) = P'.terminalCostDeriv (t0 + lit (N : ℚ) * dt)
  lim : (lim = none ∧ lim' = none) ∨
    ∃ g g', lim = some g ∧ lim' = some g' ∧ ∀ i < N, g (t0 + lit (i : ℚ) * dt) = g' (t0 + lit (i : ℚ) * dt)

/-- **C24** `solve` looks at the problem and the limits only on its time grid: problems agreeing there (with the same
input-dimension function) give the same outcome and leave the same data behind. -/
theorem C24_grid (h : AgreeOnGrid P P' lim lim' t0 dt us.length) :
    solve L P lim dt cfg o t0 scratch x0 us = solve L P' lim' dt cfg o t0 scratch x0 us := by
  have hS : StagesAgree True us.length (stagesOf P lim t0 dt us.length) (stagesOf P' lim' t0 dt us.length) := by
    refine ⟨h.stateEq, h.runningCost, h.terminalCost, fun j hj x u b b' hb => ?_, fun j hj x u b b' hb => ?_,
      fun j hj x u b b' hb => ?_, fun x b b' hb => ?_, ?_⟩
    · rw [hb trivial]; exact congrFun (congrFun (congrFun (h.stateEqDeriv j hj) x) u) b'
    · rw [hb trivial]; exact congrFun (congrFun (congrFun (h.stateEqDeriv2 j hj) x) u) b'
    · rw [hb trivial]; exact congrFun (congrFun (congrFun (h.runningCostDeriv j hj) x) u) b'
    · rw [hb trivial]; exact congrFun (congrFun h.terminalCostDeriv x) b'
    · rcases h.lim with ⟨h1, h2⟩ | ⟨g, g', h1, h2, h3⟩
      · left; rw [h1, h2]; exact ⟨rfl, rfl⟩
      · right; rw [h1, h2]; exact ⟨_, _, rfl, rfl, h3⟩
  obtain ⟨h1, h2⟩ := solve_congr (L := L) (cfg := cfg) (o := o) (o' := o) (x0 := x0) (scratch := scratch)
    (scratch' := scratch) True hS (fun _ => ⟨fun _ _ => rfl, fun _ _ => rfl, rfl⟩)
  by_cases hN : (us.length : ℤ) = cfg.horizon
  swap
  · rw [solve_invalid_length hN, solve_invalid_length hN]
  by_cases hD : DimsOk md t0 dt us
  swap
  · rw [solve_invalid_dims hN hD, solve_invalid_dims hN hD]
  exact Prod.ext (h2 hN hD) h1

end Nmpc.DDP
