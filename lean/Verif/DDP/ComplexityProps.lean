import Verif.DDP.Complexity
import Verif.DDP.BoxKktExample

/-!
# C102: the number of iterations does not depend on `max_iter` when the cost is bounded below
-/

namespace Nmpc.DDP

set_option linter.unusedSectionVars false

variable {n : ℕ} {L : LLT ℝ} {cfg : Config ℝ}
variable {md : ℝ → ℕ} {P : Callbacks n md} {lim : Option ((t : ℝ) → Vec (md t) ℝ × Vec (md t) ℝ)}
  {dt t0 : ℝ} {o : Obj n ℝ} {x0 : Vec n ℝ} {us : List (Σ k : ℕ, Vec k ℝ)}
  {scratch : Scratch n (fun i => md (timeAt t0 dt i)) ℝ}

theorem start_trajectory (hd : DimsOk md t0 dt us) :
    IsTrajectory P t0 dt us.length x0 ((start P lim dt cfg t0 scratch x0 us).ctrl.out us.length) ∧
      ((start P lim dt cfg t0 scratch x0 us).ctrl.out us.length).us = us := by
  refine ⟨out_isTrajectory (lim := lim) (rollout_consistent _ _), ?_⟩
  show (List.range us.length).map _ = us
  apply List.ext_getElem (by simp)
  intro i h1 h2
  simp only [List.getElem_map]
  have hr : (List.range us.length)[i]'(by simpa using h1) = i := by simp
  generalize (List.range us.length)[i]'(by simpa using h1) = j at hr ⊢
  subst hr
  exact inputAt_eq (m := fun i => md (timeAt t0 dt i)) h2 (by rw [hd _ h2]; rfl)

/-- Every state reached by `solve` is reached within the bound. -/
theorem solve_reaches_bound (hf : 1 < cfg.lambdaFactor) (hm : 0 < cfg.lambdaMin) (h0 : 0 ≤ cfg.initialLambda)
    (hp : 0 < cfg.initialDlambda) (hd : DimsOk md t0 dt us) {R a : ℕ}
    (hR : cfg.lambdaMax < cfg.lambdaMin * cfg.lambdaFactor ^ R) {J : ℝ}
    (hJ : ∀ d, IsTrajectory P t0 dt us.length x0 d → J ≤ listSum d.costs) {d0 : ControlData n ℝ}
    (hd0 : IsTrajectory P t0 dt us.length x0 d0) (hu : d0.us = us)
    (ha : listSum d0.costs < J + (a + 1) * cfg.costUpdateThre) {k : ℕ} {s : Solver n (fun i => md (timeAt t0 dt i)) ℝ}
    (h : Reaches L us.length cfg (stagesOf P lim t0 dt us.length) (start P lim dt cfg t0 scratch x0 us) k s) :
    k ≤ (a + 1) * (R + 2) := by
  have hst := start_trajectory (P := P) (lim := lim) (cfg := cfg) (x0 := x0) (scratch := scratch) hd
  refine reaches_bound hf hm hR (J := J) ?_ h0 hp (a := a) ?_ h
  · intro k s hr
    have hc := reaches_consistent (x0 := x0) (rollout_consistent _ _) hr
    have := hJ _ (out_isTrajectory (lim := lim) hc)
    rwa [listSum_out] at this
  · rw [← listSum_out, ← hd0.costs_eq hst.1 (hu.trans hst.2.symm)]
    exact ha

/-- **C102** Let `J` be a lower bound of the total cost of the trajectories from the initial state, `J0` the total cost of
the given inputs, `J0 < J + (a + 1) * cost_update_thre` and `lambda_max < lambda_min * lambda_factor ^ R`.  Then at
most `(a + 1) * (R + 2)` iterations are made, whatever `max_iter` is. -/
theorem C102_iterations (hf : 1 < cfg.lambdaFactor) (hm : 0 < cfg.lambdaMin) (h0 : 0 ≤ cfg.initialLambda)
    (hp : 0 < cfg.initialDlambda) (hN : (us.length : ℤ) = cfg.horizon) (hd : DimsOk md t0 dt us) {R a : ℕ}
    (hR : cfg.lambdaMax < cfg.lambdaMin * cfg.lambdaFactor ^ R) {J : ℝ}
    (hJ : ∀ d, IsTrajectory P t0 dt us.length x0 d → J ≤ listSum d.costs) {d0 : ControlData n ℝ}
    (hd0 : IsTrajectory P t0 dt us.length x0 d0) (hu : d0.us = us)
    (ha : listSum d0.costs < J + (a + 1) * cfg.costUpdateThre) :
    (solve L P lim dt cfg o t0 scratch x0 us).1.trace.length ≤ (a + 1) * (R + 2) + 1 := by
  have hb := fun k s => solve_reaches_bound (L := L) (lim := lim) (scratch := scratch) hf hm h0 hp hd hR hJ hd0 hu ha
    (k := k) (s := s)
  have hlen := fun k s => reaches_length (L := L) (N := us.length) (cfg := cfg) (S := stagesOf P lim t0 dt us.length)
    (s0 := start P lim dt cfg t0 scratch x0 us) (s := s) rfl (k := k)
  rw [solve_valid hN hd]
  show (final L P lim dt cfg t0 scratch x0 us).1.trace.length ≤ _
  rcases optLoop_reaches (L := L) (N := us.length) (cfg := cfg) (S := stagesOf P lim t0 dt us.length)
    cfg.maxIter.toNat 1 (Reaches.start (s0 := start P lim dt cfg t0 scratch x0 us)) with
    ⟨_, h1⟩ | ⟨j, s', _, _, h3, h4, _⟩
  · rw [final, hlen _ _ h1]
    exact (hb _ _ h1).trans (Nat.le_succ _)
  · obtain ⟨e, he, _⟩ := procOnce_trace (L := L) (N := us.length) (cfg := cfg)
      (S := stagesOf P lim t0 dt us.length) j s'
    rw [final, ← h4, he]
    simp only [List.length_append, List.length_singleton, hlen _ _ h3]
    have := hb _ _ h3
    omega

/-- **C102** If moreover `max_iter` is at least that number, `solve` does not stop because of the iteration limit: when
it returns `false`, the last trace entry shows a regularisation coefficient above `lambda_max`, or it is the default
entry of an iteration in which the backward pass was given up with a coefficient above `lambda_max`. -/
theorem C102_outcome (hf : 1 < cfg.lambdaFactor) (hm : 0 < cfg.lambdaMin) (h0 : 0 ≤ cfg.initialLambda)
    (hp : 0 < cfg.initialDlambda) (hN : (us.length : ℤ) = cfg.horizon) (hd : DimsOk md t0 dt us) {R a : ℕ}
    (hR : cfg.lambdaMax < cfg.lambdaMin * cfg.lambdaFactor ^ R) {J : ℝ}
    (hJ : ∀ d, IsTrajectory P t0 dt us.length x0 d → J ≤ listSum d.costs) {d0 : ControlData n ℝ}
    (hd0 : IsTrajectory P t0 dt us.length x0 d0) (hu : d0.us = us)
    (ha : listSum d0.costs < J + (a + 1) * cfg.costUpdateThre)
    (hmax : (((a + 1) * (R + 2) : ℕ) : ℤ) ≤ cfg.maxIter)
    (hfalse : (solve L P lim dt cfg o t0 scratch x0 us).2 = .ok false) :
    (∃ e, (solve L P lim dt cfg o t0 scratch x0 us).1.trace.getLast? = some e ∧
      (cfg.lambdaMax < e.lambda ∨ ∃ k, e = Trace.new k)) ∧
    ∃ (j : ℕ) (s : Solver n (fun i => md (timeAt t0 dt i)) ℝ),
      Reaches L us.length cfg (stagesOf P lim t0 dt us.length) (start P lim dt cfg t0 scratch x0 us) j s ∧
      (procOnce L us.length cfg (stagesOf P lim t0 dt us.length) j s).2 = .ok (-1) ∧
      cfg.lambdaMax < (procOnce L us.length cfg (stagesOf P lim t0 dt us.length) j s).1.lambda := by
  have hb := fun k s => solve_reaches_bound (L := L) (lim := lim) (scratch := scratch) hf hm h0 hp hd hR hJ hd0 hu ha
    (k := k) (s := s)
  rw [solve_valid hN hd] at hfalse ⊢
  have hq : (final L P lim dt cfg t0 scratch x0 us).2.map (fun v => v == 1) = .ok false := hfalse
  show (∃ e, (final L P lim dt cfg t0 scratch x0 us).1.trace.getLast? = some e ∧ _) ∧ _
  rcases optLoop_reaches (L := L) (N := us.length) (cfg := cfg) (S := stagesOf P lim t0 dt us.length)
    cfg.maxIter.toNat 1 (Reaches.start (s0 := start P lim dt cfg t0 scratch x0 us)) with
    ⟨_, h1⟩ | ⟨j, s', _, _, h3, h4, h5⟩
  · have := hb _ _ h1
    omega
  · rw [final, ← h4] at hq ⊢
    rw [← h4] at h5
    refine ⟨?_, j, s', h3, ?_⟩
    all_goals
      have hout := procOnce_out (L := L) (N := us.length) (cfg := cfg) (S := stagesOf P lim t0 dt us.length) j s'
      have hfr := bwSearch_frame (L := L) (N := us.length) (cfg := cfg) (S := stagesOf P lim t0 dt us.length)
        (startIter us.length cfg (stagesOf P lim t0 dt us.length) j s')
      generalize procOnce L us.length cfg (stagesOf P lim t0 dt us.length) j s' = r at hout hq h5
      cases hout with
      | err s2 e he hb =>
        cases e with
        | ok b => exact absurd rfl (he b)
        | _ => simp [Res.map, Res.bind] at hq
      | small s2 hb hk hl => simp [Res.map, Res.bind] at hq
      | bwFail s2 hb =>
        rw [hb] at hfr
        first
        | exact ⟨rfl, bwSearch_giveUp hb⟩
        | exact ⟨Trace.new j, by rw [hfr.2.2]; simp [startIter], .inr ⟨j, rfl⟩⟩
      | full s2 hb hk =>
        have hfin := finishStep_out (N := us.length) (cfg := cfg) s'.trace
          { Trace.new j with
            kRelNorm := kRelNorm us.length s2
            alpha := (lineSearch us.length cfg (stagesOf P lim t0 dt us.length) s2).alpha
            actual := (lineSearch us.length cfg (stagesOf P lim t0 dt us.length) s2).actual
            expected := (lineSearch us.length cfg (stagesOf P lim t0 dt us.length) s2).expected
            ratio := (lineSearch us.length cfg (stagesOf P lim t0 dt us.length) s2).ratio }
          (lineSearch us.length cfg (stagesOf P lim t0 dt us.length) s2) s2
        generalize finishStep us.length cfg s'.trace _ (lineSearch us.length cfg (stagesOf P lim t0 dt us.length) s2) s2 = r
          at hfin hq h5
        cases hfin with
        | accept hw v hv =>
          subst hv
          split at hq <;> split at h5 <;> simp_all [Res.map, Res.bind]
        | reject hw v hv =>
          subst hv
          have hl : ltb cfg.lambdaMax (s2.increase cfg).lambda = true := by
            by_contra hl
            rw [if_neg hl] at h5
            exact h5 rfl
          have hl' : cfg.lambdaMax < (s2.increase cfg).lambda := by simpa using hl
          first
          | exact ⟨by rw [if_pos hl], hl'⟩
          | exact ⟨_, List.getLast?_concat, .inl hl'⟩

/-- **C102** Hence there is a number of iterations, depending on the problem, the inputs and the configuration but not on
`max_iter`, which is never exceeded. -/
theorem C102_uniform (hf : 1 < cfg.lambdaFactor) (hm : 0 < cfg.lambdaMin) (h0 : 0 ≤ cfg.initialLambda)
    (hp : 0 < cfg.initialDlambda) (ht : 0 < cfg.costUpdateThre) (hN : (us.length : ℤ) = cfg.horizon)
    (hd : DimsOk md t0 dt us) {J : ℝ} (hJ : ∀ d, IsTrajectory P t0 dt us.length x0 d → J ≤ listSum d.costs) :
    ∃ K : ℕ, ∀ maxIter : ℤ, ∀ scratch : Scratch n (fun i => md (timeAt t0 dt i)) ℝ, ∀ o : Obj n ℝ,
      (solve L P lim dt { cfg with maxIter := maxIter } o t0 scratch x0 us).1.trace.length ≤ K + 1 := by
  obtain ⟨R, hR⟩ := pow_unbounded_of_one_lt (cfg.lambdaMax / cfg.lambdaMin) hf
  rw [div_lt_iff₀ hm, mul_comm] at hR
  let g0 : Scratch n (fun i => md (timeAt t0 dt i)) ℝ :=
    { gains := { k := fun _ _ => 0, K := fun _ _ _ => 0 }
      derivs := { F := fun _ => ⟨0, 0⟩, L := fun _ => ⟨0, 0, 0, 0, 0⟩, V := ⟨0, 0⟩ }, dV0 := 0, dV1 := 0 }
  obtain ⟨hd0, hu⟩ := start_trajectory (P := P) (lim := lim) (cfg := cfg) (x0 := x0) (scratch := g0) hd
  obtain ⟨a, ha⟩ := exists_nat_gt ((listSum ((start P lim dt cfg t0 g0 x0 us).ctrl.out us.length).costs - J)
    / cfg.costUpdateThre)
  rw [div_lt_iff₀ ht] at ha
  refine ⟨(a + 1) * (R + 2), fun maxIter scratch o => ?_⟩
  exact C102_iterations (cfg := { cfg with maxIter := maxIter }) hf hm h0 hp hN hd hR hJ hd0 hu (by
    show _ < J + (a + 1) * cfg.costUpdateThre
    linarith)

end Nmpc.DDP
