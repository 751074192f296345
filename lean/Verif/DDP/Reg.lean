import Verif.DDP.Props
import Verif.BoxQP.Props

/-!
# Regularisation: termination and range (exact arithmetic)
-/

namespace Nmpc.DDP

set_option linter.unusedSectionVars false

variable {n : ℕ} {m : ℕ → ℕ} {L : LLT ℝ} {N : ℕ} {cfg : Config ℝ} {S : Stages n m ℝ}

/-! ## C15 -/

theorem bwLoop_not_diverge (c : Ctrl n m ℝ) (d : Derivs n m ℝ) (lambda : ℝ) (i : ℕ) (s : BwState n m ℝ) :
    bwLoop L N cfg S c d lambda i s ≠ .diverge := by
  induction i generalizing s with
  | zero => simp [bwLoop]
  | succ i ih =>
    unfold bwLoop bwStage
    split
    · exact fun h => by cases h
    · dsimp only
      have hs : stageGains L N cfg S c s.gains i (calcQ cfg lambda (d.F i) (d.L i) s.V) ≠ .diverge := by
        unfold stageGains
        split
        · split
          · split
            · exact fun h => by cases h
            · rename_i lm _
              intro h
              rcases constrainedGains_out (L := L) (calcQ cfg lambda (d.F i) (d.L i) s.V) (lm i).1 (lm i).2 (c.u i)
                (initialK N s.gains i) with h1 | ⟨r, _, h1 | h1 | h1⟩
              · obtain ⟨r, h2, _⟩ := BoxQP.C03_terminates_real (L := L) (c := BoxQP.Config.default)
                  (o := freshQP (m i))
                  (a := { H := (calcQ cfg lambda (d.F i) (d.L i) s.V).QuuF, g := (calcQ cfg lambda (d.F i) (d.L i) s.V).Qu,
                          lower := (lm i).1 - c.u i, upper := (lm i).2 - c.u i, init := initialK N s.gains i })
                  (by simp [BoxQP.Config.default]) (by simp only [BoxQP.Config.default, lit_real]; norm_num)
                  (by simp only [BoxQP.Config.default, lit_real]; norm_num)
                rw [h2] at h1; exact absurd h1.2 (by simp)
              · rw [h] at h1; exact absurd h1.2 (by simp)
              · rw [h] at h1; exact absurd h1.2.2 (by simp)
              · rw [h] at h1; exact absurd h1.2.2.2 (by simp)
          · exact fun h => by cases h
        · exact fun h => by cases h
      rcases stageGains_kind (L := L) (N := N) (cfg := cfg) (S := S) c s.gains i
        (calcQ cfg lambda (d.F i) (d.L i) s.V) with ⟨r, h⟩ | ⟨h, hc⟩ | ⟨h, hc⟩
      · rw [h, Res.bind_ok]
        cases r with
        | none => exact fun h => by cases h
        | some r => exact ih _
      · exact absurd h hs
      · rw [h]; exact fun h => by cases h

theorem increase_lambda (s : Solver n m ℝ) (h0 : 0 ≤ s.lambda) :
    cfg.lambdaFactor * s.lambda ≤ (s.increase cfg).lambda := by
  simp only [Solver.increase, fmax_real]
  refine le_trans ?_ (le_max_left _ _)
  rw [mul_comm]
  exact mul_le_mul_of_nonneg_left (le_max_right _ _) h0

theorem increase_min (s : Solver n m ℝ) : cfg.lambdaMin ≤ (s.increase cfg).lambda := by
  simp only [Solver.increase, fmax_real]
  exact le_max_right _ _

theorem bwRounds_terminate (hf : 1 < cfg.lambdaFactor) (hm : 0 < cfg.lambdaMin) (j : ℕ) (s : Solver n m ℝ)
    (h0 : cfg.lambdaMin ≤ s.lambda) (hj : cfg.lambdaMax < s.lambda * cfg.lambdaFactor ^ j) :
    ∃ r, loopM (bwRound L N cfg S) s = some r := by
  induction j generalizing s with
  | zero =>
    cases h : bwRound L N cfg S s with
    | inr r => exact ⟨r, loopM_inr h⟩
    | inl s' =>
      exfalso
      have := bwRound_out (L := L) (N := N) (cfg := cfg) (S := S) s
      rw [h] at this
      cases this with
      | again b hb hl =>
        have h1 := increase_lambda (cfg := cfg) (s.setBw b) (le_trans hm.le h0)
        rw [ltb_real_false] at hl
        have : cfg.lambdaFactor * s.lambda ≤ cfg.lambdaMax := le_trans h1 hl
        simp only [pow_zero, mul_one] at hj
        nlinarith
  | succ j ih =>
    cases h : bwRound L N cfg S s with
    | inr r => exact ⟨r, loopM_inr h⟩
    | inl s' =>
      have := bwRound_out (L := L) (N := N) (cfg := cfg) (S := S) s
      rw [h] at this
      cases this with
      | again b hb hl =>
        have h1 := increase_lambda (cfg := cfg) (s.setBw b) (le_trans hm.le h0)
        rw [loopM_inl h]
        refine ih _ (increase_min _) (lt_of_lt_of_le hj ?_)
        have h2 : cfg.lambdaFactor * s.lambda ≤ ((s.setBw b).increase cfg).lambda := h1
        calc s.lambda * cfg.lambdaFactor ^ (j + 1) = (cfg.lambdaFactor * s.lambda) * cfg.lambdaFactor ^ j := by ring
          _ ≤ _ := mul_le_mul_of_nonneg_right h2 (pow_nonneg (by linarith) _)

theorem bwRounds_terminate' (hf : 1 < cfg.lambdaFactor) (hm : 0 < cfg.lambdaMin) (s : Solver n m ℝ) :
    ∃ r, loopM (bwRound L N cfg S) s = some r := by
  have key : ∀ s : Solver n m ℝ, cfg.lambdaMin ≤ s.lambda → ∃ r, loopM (bwRound L N cfg S) s = some r := by
    intro s h0
    have hpos : 0 < s.lambda := lt_of_lt_of_le hm h0
    obtain ⟨j, hj⟩ := pow_unbounded_of_one_lt (cfg.lambdaMax / s.lambda) hf
    rw [div_lt_iff₀ hpos, mul_comm] at hj
    exact bwRounds_terminate hf hm j s h0 hj
  cases h : bwRound L N cfg S s with
  | inr r => exact ⟨r, loopM_inr h⟩
  | inl s' =>
    have := bwRound_out (L := L) (N := N) (cfg := cfg) (S := S) s
    rw [h] at this
    cases this with
    | again b hb hl => rw [loopM_inl h]; exact key _ (increase_min _)

theorem bwSearch_not_diverge (hf : 1 < cfg.lambdaFactor) (hm : 0 < cfg.lambdaMin) (s : Solver n m ℝ) :
    (bwSearch L N cfg S s).2 ≠ .diverge := by
  obtain ⟨r, hr⟩ := bwRounds_terminate' (L := L) (N := N) (S := S) hf hm s
  unfold bwSearch
  rw [hr]
  refine loopM_invariant (fun _ => True) (fun r : Solver n m ℝ × Res Bool => r.2 ≠ .diverge) (fun _ _ _ _ => trivial)
    ?_ trivial hr
  intro s r _ h
  have := bwRound_out (L := L) (N := N) (cfg := cfg) (S := S) s
  rw [h] at this
  cases this with
  | success b hb => simp
  | giveUp b hb hl => simp
  | err e he hb =>
    intro h
    dsimp only at h
    subst h
    refine bwLoop_not_diverge (L := L) (N := N) (cfg := cfg) (S := S) s.ctrl s.derivs s.lambda N
      { V := s.derivs.V, dV0 := 0, dV1 := 0, gains := s.gains } ?_
    rw [← backwardPass]
    cases hq : backwardPass L N cfg S s <;> rw [hq] at hb <;> simp_all [Res.map]

variable {md : ℝ → ℕ} {P : Callbacks n md} {lim : Option ((t : ℝ) → Vec (md t) ℝ × Vec (md t) ℝ)}
  {dt t0 : ℝ} {o : Obj n ℝ} {x0 : Vec n ℝ} {us : List (Σ k : ℕ, Vec k ℝ)}
  {scratch : Scratch n (fun i => md (timeAt t0 dt i)) ℝ}

/-- **C15** With `lambda_factor > 1` and `lambda_min > 0` the solver terminates, for every problem, every configuration
of the other parameters, and whatever the factorisations do. -/
theorem C15_terminates (hf : 1 < cfg.lambdaFactor) (hm : 0 < cfg.lambdaMin) :
    (solve L P lim dt cfg o t0 scratch x0 us).2 ≠ .diverge := by
  by_cases hN : (us.length : ℤ) = cfg.horizon
  swap
  · rw [solve_invalid_length hN]; simp
  by_cases hd : DimsOk md t0 dt us
  swap
  · rw [solve_invalid_dims hN hd]; simp
  rw [solve_valid hN hd]
  dsimp only
  have key : (final L P lim dt cfg t0 scratch x0 us).2 ≠ .diverge := by
    refine optLoop_rule (fun _ _ => True) (fun q => q.2 ≠ .diverge) _ _ trivial (fun _ _ _ _ _ _ _ => trivial) ?_
      (fun _ _ => by simp)
    intro j s s' e _ _ _ h _
    have := procOnce_out (L := L) (N := us.length) (cfg := cfg) (S := stagesOf P lim t0 dt us.length) j s
    rw [h] at this
    cases this with
    | bwFail => simp
    | err s2 e he hb =>
      intro h
      have h' := bwSearch_not_diverge (L := L) (N := us.length) (S := stagesOf P lim t0 dt us.length) hf hm
        (startIter us.length cfg (stagesOf P lim t0 dt us.length) j s)
      rw [hb] at h'
      dsimp only at h h'
      cases e <;> simp_all [Res.map]
    | small => simp
    | full => exact fun h => by cases h
  cases hq : (final L P lim dt cfg t0 scratch x0 us).2 <;> simp_all [Res.map]

/-! ## C16 -/

/-- A trace entry with regularisation in range. -/
def RegOk (cfg : Config ℝ) (e : Trace ℝ) : Prop := 0 ≤ e.lambda ∧ e.lambda ≤ cfg.lambdaMax ∧ 0 < e.dlambda

/-- Invariant of the optimisation loop. -/
structure RegInv (cfg : Config ℝ) (s : Solver n m ℝ) : Prop where
  nonneg : 0 ≤ s.lambda
  le : s.lambda ≤ cfg.lambdaMax
  pos : 0 < s.dlambda
  trace : ∀ e ∈ s.trace, RegOk cfg e

theorem increase_nonneg (hm : 0 < cfg.lambdaMin) (s : Solver n m ℝ) : 0 ≤ (s.increase cfg).lambda :=
  le_trans hm.le (increase_min s)

theorem increase_pos (hf : 1 < cfg.lambdaFactor) (s : Solver n m ℝ) : 0 < (s.increase cfg).dlambda := by
  simp only [Solver.increase, fmax_real]
  exact lt_of_lt_of_le (by linarith) (le_max_right _ _)

theorem decrease_pos (hf : 1 < cfg.lambdaFactor) (s : Solver n m ℝ) (h : 0 < s.dlambda) :
    0 < (s.decrease cfg).dlambda := by
  simp only [Solver.decrease, fmin_real]
  have : 0 < cfg.lambdaFactor := by linarith
  exact lt_min (by positivity) (by positivity)

theorem decrease_lambda (hf : 1 < cfg.lambdaFactor) (s : Solver n m ℝ) (h : 0 < s.dlambda) (h0 : 0 ≤ s.lambda) :
    0 ≤ (s.decrease cfg).lambda ∧ (s.decrease cfg).lambda ≤ s.lambda := by
  have h1 := decrease_pos hf s h
  have h2 : (s.decrease cfg).dlambda ≤ 1 := by
    simp only [Solver.decrease, fmin_real]
    refine le_trans (min_le_right _ _) ?_
    rw [div_le_one (by linarith)]; exact hf.le
  have h3 : (s.decrease cfg).lambda = if leb cfg.lambdaMin s.lambda then s.lambda * (s.decrease cfg).dlambda else 0 := rfl
  rw [h3]
  split
  · exact ⟨mul_nonneg h0 h1.le, mul_le_of_le_one_right h0 h2⟩
  · exact ⟨le_rfl, h0⟩

theorem bwSearch_reg (hf : 1 < cfg.lambdaFactor) (hm : 0 < cfg.lambdaMin) {s : Solver n m ℝ}
    (h0 : 0 ≤ s.lambda) (hle : s.lambda ≤ cfg.lambdaMax) (hp : 0 < s.dlambda) :
    0 ≤ (bwSearch L N cfg S s).1.lambda ∧ 0 < (bwSearch L N cfg S s).1.dlambda ∧
      ((bwSearch L N cfg S s).2 = .ok true → (bwSearch L N cfg S s).1.lambda ≤ cfg.lambdaMax) := by
  refine bwSearch_rule (fun s => 0 ≤ s.lambda ∧ s.lambda ≤ cfg.lambdaMax ∧ 0 < s.dlambda)
    (fun r => 0 ≤ r.1.lambda ∧ 0 < r.1.dlambda ∧ (r.2 = .ok true → r.1.lambda ≤ cfg.lambdaMax)) ⟨h0, hle, hp⟩ ?_ ?_ ?_ ?_ ?_
  · intro s b hs _ hl
    exact ⟨increase_nonneg hm _, by simpa using hl, increase_pos hf _⟩
  · intro s b hs _
    exact ⟨hs.1, hs.2.2, fun _ => hs.2.1⟩
  · intro s b hs _ hl
    exact ⟨increase_nonneg hm _, increase_pos hf _, by simp⟩
  · intro s e hs he _
    exact ⟨hs.1, hs.2.2, fun _ => hs.2.1⟩
  · intro _
    exact ⟨h0, hp, fun _ => hle⟩

/-- The effect of one iteration on the regularisation. -/
theorem procOnce_reg (hf : 1 < cfg.lambdaFactor) (hm : 0 < cfg.lambdaMin) (iter : ℕ) {s : Solver n m ℝ} (hs : RegInv cfg s) :
    ∃ e, (procOnce L N cfg S iter s).1.trace = s.trace ++ [e] ∧ 0 ≤ e.lambda ∧
      (0 < e.dlambda ∨ e.dlambda = 0 ∧ e.lambda = 0 ∧ (procOnce L N cfg S iter s).2 ≠ .ok 0) ∧
      (e.lambda ≤ cfg.lambdaMax ∨ (procOnce L N cfg S iter s).2 = .ok (-1)) ∧
      ((procOnce L N cfg S iter s).2 = .ok 0 → RegInv cfg (procOnce L N cfg S iter s).1) := by
  have hb0 := bwSearch_reg (L := L) (N := N) (S := S) hf hm (s := startIter N cfg S iter s) hs.nonneg hs.le hs.pos
  have hfr := bwSearch_frame (L := L) (N := N) (cfg := cfg) (S := S) (startIter N cfg S iter s)
  have := procOnce_out (L := L) (N := N) (cfg := cfg) (S := S) iter s
  generalize procOnce L N cfg S iter s = r at this
  have hlm : 0 ≤ cfg.lambdaMax := le_trans hs.nonneg hs.le
  cases this with
  | bwFail s2 hb =>
    rw [hb] at hfr hb0
    refine ⟨Trace.new iter, hfr.2.2, ?_, ?_, ?_, ?_⟩
    · simp [Trace.new]
    · right; simp [Trace.new]
    · left; simpa [Trace.new] using hlm
    · simp
  | err s2 e he hb =>
    rw [hb] at hfr hb0
    refine ⟨Trace.new iter, hfr.2.2, ?_, ?_, ?_, ?_⟩
    · simp [Trace.new]
    · right
      refine ⟨rfl, rfl, ?_⟩
      cases e with
      | ok b => exact absurd rfl (he b)
      | _ => simp [Res.map]
    · left; simpa [Trace.new] using hlm
    · cases e with
      | ok b => exact absurd rfl (he b)
      | _ => simp [Res.map]
  | small s2 hb hk hl =>
    refine ⟨{ Trace.new iter with kRelNorm := kRelNorm N s2 }, rfl, ?_, ?_, ?_, ?_⟩
    · simp [Trace.new]
    · right; simp [Trace.new]
    · left; simpa [Trace.new] using hlm
    · simp
  | full s2 hb hk =>
    rw [hb] at hfr hb0
    dsimp only at hb0 hfr
    obtain ⟨h1, h2, h3⟩ := hb0
    have h3 := h3 rfl
    have := finishStep_out (N := N) (cfg := cfg) s.trace
      { Trace.new iter with
        kRelNorm := kRelNorm N s2, alpha := (lineSearch N cfg S s2).alpha, actual := (lineSearch N cfg S s2).actual,
        expected := (lineSearch N cfg S s2).expected, ratio := (lineSearch N cfg S s2).ratio } (lineSearch N cfg S s2) s2
    generalize finishStep N cfg s.trace _ (lineSearch N cfg S s2) s2 = r at this
    cases this with
    | accept hw s3 h3' =>
      subst h3'
      have hd := decrease_lambda (cfg := cfg) hf { s2 with ctrl := (lineSearch N cfg S s2).cand } h2 h1
      have hp := decrease_pos (cfg := cfg) hf { s2 with ctrl := (lineSearch N cfg S s2).cand } h2
      refine ⟨_, rfl, hd.1, .inl hp, .inl (le_trans hd.2 h3), fun _ => ⟨hd.1, le_trans hd.2 h3, hp, ?_⟩⟩
      intro e he
      rcases List.mem_append.1 he with he | he
      · exact hs.trace e he
      · rw [List.mem_singleton.1 he]; exact ⟨hd.1, le_trans hd.2 h3, hp⟩
    | reject hw s3 h3' =>
      subst h3'
      have hn := increase_nonneg (cfg := cfg) hm s2
      have hp := increase_pos (cfg := cfg) hf s2
      refine ⟨_, rfl, hn, .inl hp, ?_, ?_⟩
      · by_cases hl : cfg.lambdaMax < (s2.increase cfg).lambda
        · right; simp [hl]
        · left; exact not_lt.1 hl
      · intro h0
        by_cases hl : cfg.lambdaMax < (s2.increase cfg).lambda
        · exfalso; simp [hl] at h0
        · refine ⟨hn, not_lt.1 hl, hp, ?_⟩
          intro e he
          rcases List.mem_append.1 he with he | he
          · exact hs.trace e he
          · rw [List.mem_singleton.1 he]; exact ⟨hn, not_lt.1 hl, hp⟩

/-- **C16** All trace entries but the last have a regularisation coefficient in `[0, lambda_max]` and a positive scaling
factor.  In the last entry the coefficient is non-negative and the scaling factor is positive, unless the iteration
was cut short and both were left at zero; the coefficient exceeds `lambda_max` only if `solve` returns `false`. -/
theorem C16_range (hf : 1 < cfg.lambdaFactor) (hm : 0 < cfg.lambdaMin) (h0 : 0 ≤ cfg.initialLambda)
    (hle : cfg.initialLambda ≤ cfg.lambdaMax) (hp : 0 < cfg.initialDlambda)
    (hN : (us.length : ℤ) = cfg.horizon) (hd : DimsOk md t0 dt us) :
    ∃ es e, (solve L P lim dt cfg o t0 scratch x0 us).1.trace = es ++ [e] ∧
      (∀ e' ∈ es, 0 ≤ e'.lambda ∧ e'.lambda ≤ cfg.lambdaMax ∧ 0 < e'.dlambda) ∧
      0 ≤ e.lambda ∧ (0 < e.dlambda ∨ e.dlambda = 0 ∧ e.lambda = 0) ∧
      (e.lambda ≤ cfg.lambdaMax ∨ (solve L P lim dt cfg o t0 scratch x0 us).2 = .ok false) := by
  rw [solve_valid hN hd]
  have hinit : RegInv cfg (start P lim dt cfg t0 scratch x0 us) :=
    ⟨h0, hle, hp, by intro e he; rw [List.mem_singleton.1 he]; exact ⟨h0, hle, hp⟩⟩
  have hR : ∀ j s, Reaches L us.length cfg (stagesOf P lim t0 dt us.length) (start P lim dt cfg t0 scratch x0 us) j s →
      RegInv cfg s ∧ s.trace ≠ [] := by
    intro j s h
    induction h with
    | start => exact ⟨hinit, by simp [initSolver]⟩
    | @next k s s' h1 h2 ih =>
      obtain ⟨e, h3, _, _, _, h4⟩ :=
        procOnce_reg (L := L) (N := us.length) (S := stagesOf P lim t0 dt us.length) hf hm k ih.1
      rw [h2] at h3 h4
      exact ⟨h4 rfl, by rw [h3]; simp⟩
  dsimp only
  rcases optLoop_reaches (L := L) (N := us.length) (cfg := cfg) (S := stagesOf P lim t0 dt us.length)
    cfg.maxIter.toNat 1 (Reaches.start (s0 := start P lim dt cfg t0 scratch x0 us)) with
    ⟨hr, h1⟩ | ⟨j, s', h1, h2, h3, h4, h5⟩
  · obtain ⟨h2, h3⟩ := hR _ _ h1
    refine ⟨_, _, (List.dropLast_append_getLast h3).symm, ?_, ?_⟩
    · intro e' he'; exact h2.trace e' (List.dropLast_subset _ he')
    · have := h2.trace _ (List.getLast_mem h3)
      exact ⟨this.1, .inl this.2.2, .inl this.2.1⟩
  · obtain ⟨h6, h7⟩ := hR _ _ h3
    obtain ⟨e, g1, g2, g3, g4, _⟩ :=
      procOnce_reg (L := L) (N := us.length) (S := stagesOf P lim t0 dt us.length) hf hm j h6
    rw [final, ← h4]
    refine ⟨s'.trace, e, g1, h6.trace, g2, ?_, ?_⟩
    · rcases g3 with g3 | g3
      · exact .inl g3
      · exact .inr ⟨g3.1, g3.2.1⟩
    · rcases g4 with g4 | g4
      · exact .inl g4
      · right; rw [g4]; rfl

end Nmpc.DDP
