import Verif.DDP.GaussNewtonIter
import Verif.DDP.NewtonProps

/-!
# C119: with nonlinear dynamics DDP converges like the Gauss-Newton method near a solution
-/

namespace Nmpc.DDP

set_option linter.unusedSectionVars false

open Matrix Finset

/-- Specification of a problem with nonlinear dynamics, general costs, and their derivatives. -/
structure GNProblem (n : ℕ) (md : ℝ → ℕ) where
  f : (t : ℝ) → Vec n ℝ → Vec (md t) ℝ → Vec n ℝ
  l : (t : ℝ) → Vec n ℝ → Vec (md t) ℝ → ℝ
  φ : ℝ → Vec n ℝ → ℝ
  df : (t : ℝ) → Vec n ℝ → Vec (md t) ℝ → FDeriv n (md t) ℝ
  dl : (t : ℝ) → Vec n ℝ → Vec (md t) ℝ → LDeriv n (md t) ℝ
  dφ : ℝ → Vec n ℝ → VDeriv n ℝ

/-- The callbacks of the problem: every derivative callback writes the whole of its output. -/
def GNProblem.callbacks {n : ℕ} {md : ℝ → ℕ} (p : GNProblem n md) : Callbacks n md where
  stateEq t x u := p.f t x u
  runningCost t x u := p.l t x u
  terminalCost t x := p.φ t x
  stateEqDeriv t x u _ := p.df t x u
  stateEqDeriv2 t x u _ := p.df t x u
  runningCostDeriv t x u _ := p.dl t x u
  terminalCostDeriv t x _ := p.dφ t x

/-- The hypotheses of the local convergence theorem, for a solution with states `xs`, inputs `us` and costates `lam`; see `GNRegion`. -/
def GNProblem.Regular {n : ℕ} {md : ℝ → ℕ} (p : GNProblem n md) (t0 dt : ℝ) (N : ℕ) (xs : ℕ → Vec n ℝ)
    (us : (i : ℕ) → Vec (md (timeAt t0 dt i)) ℝ) (lam : ℕ → Vec n ℝ) (r ρ μ θ M : ℝ) : Prop :=
  GNRegion N (stagesOf p.callbacks none t0 dt N) (fun i => p.df (timeAt t0 dt i)) (fun i => p.dl (timeAt t0 dt i))
    (p.dφ (timeAt t0 dt N)) xs us lam r ρ μ θ M

variable {n : ℕ} {md : ℝ → ℕ} {p : GNProblem n md} {L : LLT ℝ} {cfg : Config ℝ}
  {lim : Option ((t : ℝ) → Vec (md t) ℝ × Vec (md t) ℝ)}
  {dt t0 : ℝ} {x0 : Vec n ℝ}

theorem GNProblem.Regular.region {N : ℕ} {cs : Ctrl n (fun i => md (timeAt t0 dt i)) ℝ} {lam : ℕ → Vec n ℝ} {r ρ μ θ M : ℝ}
    (hp : p.Regular t0 dt N (stateOf (cs.out N)) (inputOf md t0 dt (cs.out N)) lam r ρ μ θ M) :
    GNRegion N (stagesOf p.callbacks lim t0 dt N) (fun i => p.df (timeAt t0 dt i)) (fun i => p.dl (timeAt t0 dt i))
      (p.dφ (timeAt t0 dt N)) cs.x cs.u lam r ρ μ θ M := by
  have hx : ∀ i ≤ N, stateOf (cs.out N) i = cs.x i := fun i hi => stateOf_out hi
  have hv : ∀ i < N, inputOf md t0 dt (cs.out N) i = cs.u i := fun i hi => inputOf_out hi
  exact
    { jac := fun i hi x u h => hp.jac i hi x u (by rwa [hx i hi.le, hv i hi])
      lip := fun i hi x u x' u' h h' => hp.lip i hi x u x' u' (by rwa [hx i hi.le, hv i hi]) (by rwa [hx i hi.le, hv i hi])
      weight := fun i hi x u x' u' h h' => hp.weight i hi x u x' u' (by rwa [hx i hi.le, hv i hi]) (by rwa [hx i hi.le, hv i hi])
      run := fun i hi => by have := hp.run i hi; rwa [hx i hi.le, hv i hi] at this
      term := by have := hp.term; rwa [hx _ le_rfl] at this
      convex := fun i hi x u h => hp.convex i hi x u (by rwa [hx i hi.le, hv i hi])
      input := fun i hi x u h => hp.input i hi x u (by rwa [hx i hi.le, hv i hi])
      termConvex := fun x h => hp.termConvex x (by rwa [hx _ le_rfl])
      curv := fun x u h1 h2 => hp.curv x u (fun i hi => by rw [hx i hi.le, hv i hi]; exact h1 i hi) (by rwa [hx _ le_rfl])
      lamN := by rw [hp.lamN, hx _ le_rfl]
      lamX := fun i hi => by have := hp.lamX i hi; rwa [hx i hi.le, hv i hi] at this
      lamU := fun i hi => by have := hp.lamU i hi; rwa [hx i hi.le, hv i hi] at this }

theorem gn_derivs {N : ℕ} (h2 : cfg.useSecond = false) (c : Ctrl n (fun i => md (timeAt t0 dt i)) ℝ)
    (b : Derivs n (fun i => md (timeAt t0 dt i)) ℝ) :
    (∀ i < N, (calcDerivs N cfg (stagesOf p.callbacks lim t0 dt N) c b).F i = p.df (timeAt t0 dt i) (c.x i) (c.u i)) ∧
    (∀ i < N, (calcDerivs N cfg (stagesOf p.callbacks lim t0 dt N) c b).L i = p.dl (timeAt t0 dt i) (c.x i) (c.u i)) ∧
    (calcDerivs N cfg (stagesOf p.callbacks lim t0 dt N) c b).V = p.dφ (timeAt t0 dt N) (c.x N) := by
  refine ⟨fun i hi => ?_, fun i hi => ?_, rfl⟩
  · simp only [calcDerivs, if_pos hi, h2]; rfl
  · simp only [calcDerivs, if_pos hi]; rfl

/-- What a call of `solve` from a trajectory near the solution does: `st` are the trace entries of the accepted full steps, `fin` is the
entry of a last iteration that stopped because the feedforward terms are small. -/
structure NearRun (L : LLT ℝ) (p : GNProblem n md) (lim : Option ((t : ℝ) → Vec (md t) ℝ × Vec (md t) ℝ)) (dt : ℝ) (cfg : Config ℝ)
    (o : Obj n ℝ) (t0 : ℝ) (scratch : Scratch n (fun i => md (timeAt t0 dt i)) ℝ) (x0 : Vec n ℝ) (us : List (Σ k : ℕ, Vec k ℝ))
    (st fin : List (Trace ℝ)) : Prop where
  trace : ∃ e0, (solve L p.callbacks lim dt cfg o t0 scratch x0 us).1.trace = e0 :: (st ++ fin)
  full : ∀ e ∈ st, e.alpha = 1
  result : (fin = [] ∧ (((solve L p.callbacks lim dt cfg o t0 scratch x0 us).2 = .ok false ∧ st.length = cfg.maxIter.toNat) ∨
        ((solve L p.callbacks lim dt cfg o t0 scratch x0 us).2 = .ok true ∧
          ∃ e, st.getLast? = some e ∧ e.actual < cfg.costUpdateThre))) ∨
      ∃ e, fin = [e] ∧ e.alpha = 0 ∧ e.kRelNorm < cfg.kRelNormThre ∧
        (solve L p.callbacks lim dt cfg o t0 scratch x0 us).2 = .ok true

section Solve
variable {N : ℕ} {ds : ControlData n ℝ} {lam : ℕ → Vec n ℝ} {r ρ μ θ M : ℝ}
  (hL : L.Exact) (hw : cfg.withConstraint = false) (h2 : cfg.useSecond = false)
  (hlm : 0 < cfg.lambdaMin) (hk : 0 < cfg.kRelNormThre) (hlt : 0 < cfg.lambdaThre) {as : List ℝ}
  (ha : cfg.alphaList = 1 :: as) (h0 : cfg.initialLambda = 0) (hN : (N : ℤ) = cfg.horizon)
  (hr : 0 < r) (hρ : 0 < ρ) (hμ : 0 < μ) (hθ : 0 ≤ θ) (hθρ : θ < ρ * (1 - cfg.costUpdateRatioThre))
  (hds : IsTrajectory p.callbacks t0 dt N x0 ds)
  (hp : p.Regular t0 dt N (stateOf ds) (inputOf md t0 dt ds) lam r ρ μ θ M)
include hL hw h2 hlm hk hlt ha h0 hN hr hρ hμ hθ hθρ hds hp

/-- Near the solution the distances `D` of the iterates from it satisfy `D_{j+1} ≤ (θ / ρ) D_j + C D_j²`. -/
theorem gn_solve : ∃ C q1 : ℝ, 0 ≤ C ∧ 0 < q1 ∧ ∀ q, q ≤ q1 → (∀ t, 0 ≤ t → t < q → θ / ρ * t + C * t ^ 2 ≤ t) →
    ∀ (k : ℤ) (o : Obj n ℝ) (scratch : Scratch n (fun i => md (timeAt t0 dt i)) ℝ) (us : List (Σ k : ℕ, Vec k ℝ)) (d0 : ControlData n ℝ),
    us.length = N → DimsOk md t0 dt us → IsTrajectory p.callbacks t0 dt N x0 d0 → d0.us = us → trajDist md t0 dt N ds d0 < q →
    ∃ st fin, NearRun L p lim dt { cfg with maxIter := k } o t0 scratch x0 us st fin ∧
      ∃ D : ℕ → ℝ, D 0 = trajDist md t0 dt N ds d0 ∧
        (∀ j, 0 ≤ D j ∧ D j < q ∧ (j < st.length → D (j + 1) ≤ θ / ρ * D j + C * D j ^ 2)) ∧
        D st.length = trajDist md t0 dt N ds (solve L p.callbacks lim dt { cfg with maxIter := k } o t0 scratch x0 us).1.control := by
  obtain ⟨cs, hcs, rfl⟩ := hds.exists_ctrl (lim := lim)
  have hR := hp.region (lim := lim)
  obtain ⟨C, q1, hC, hq1, hqr, hnear⟩ := hR.near (L := L) (cfg := cfg) hr hL hw hcs hθ hρ hμ hθρ
  refine ⟨C, q1, hC, hq1, fun q hq hdec k o scratch us d0 hlen hd hd0 hu hdist => ?_⟩
  subst hlen
  have hst := start_out (lim := lim) (cfg := { cfg with maxIter := k }) (scratch := scratch) hd0 hu
  have hc0 : Consistent us.length (stagesOf p.callbacks lim t0 dt us.length) x0
      (start p.callbacks lim dt { cfg with maxIter := k } t0 scratch x0 us).ctrl := rollout_consistent _ _
  have hdist' : √(devSq us.length (devOf cs (start p.callbacks lim dt { cfg with maxIter := k } t0 scratch x0 us).ctrl)) < q := by
    rw [← trajDist_out, hst]; exact hdist
  obtain ⟨st, fin, D, i1, i2, i3, i4, i5, i6⟩ := gn_loop hL hw h2 hlm hk hlt ha hμ hR (hq.trans hqr)
    (fun c b => (gn_derivs h2 c b).1) (fun c b => (gn_derivs h2 c b).2.1) (fun c b => (gn_derivs h2 c b).2.2)
    (fun pt hpt => hnear pt (hpt.trans_le hq)) hdec k.toNat 1
    (s := start p.callbacks lim dt { cfg with maxIter := k } t0 scratch x0 us) h0 hc0 hdist'
  have hfin : final L p.callbacks lim dt { cfg with maxIter := k } t0 scratch x0 us =
      optLoop L us.length cfg (stagesOf p.callbacks lim t0 dt us.length) k.toNat 1
        (start p.callbacks lim dt { cfg with maxIter := k } t0 scratch x0 us) := optLoop_maxIter k _ _ _
  rw [← hfin] at i1 i3 i6
  have hsv := solve_valid (L := L) (P := p.callbacks) (lim := lim) (dt := dt) (cfg := { cfg with maxIter := k }) (o := o) (t0 := t0)
    (scratch := scratch) (x0 := x0) hN hd
  refine ⟨st, fin, ⟨?_, i2, ?_⟩, D, ?_, i5, ?_⟩
  · rw [hsv]; exact ⟨_, i1⟩
  · rw [hsv]
    have hres : ∀ v, (final L p.callbacks lim dt { cfg with maxIter := k } t0 scratch x0 us).2 = .ok v →
        (final L p.callbacks lim dt { cfg with maxIter := k } t0 scratch x0 us).2.map (fun v => v == 1) = .ok (v == 1) := by
      intro v hv
      rw [hv]; rfl
    rcases i3 with ⟨j1, ⟨j2, j3⟩ | ⟨j2, e', j3, j4⟩⟩ | ⟨e', j1, j2, j3, j4⟩
    · exact .inl ⟨j1, .inl ⟨hres 0 j2, j3⟩⟩
    · exact .inl ⟨j1, .inr ⟨hres 1 j2, e', j3, j4⟩⟩
    · exact .inr ⟨e', j1, j2, j3, hres 1 j4⟩
  · rw [i4, ← trajDist_out, hst]
  · rw [i6, hsv]
    show _ = trajDist md t0 dt us.length _ ((final L p.callbacks lim dt { cfg with maxIter := k } t0 scratch x0 us).1.ctrl.out us.length)
    rw [trajDist_out]

/-- **C119** Linear convergence: let `ds` be a stationary trajectory around which the hypotheses `Regular` hold, with
`θ < ρ (1 - cost_update_ratio_thre)`.  For every rate `κ` with `θ / ρ < κ < 1` there is a radius `q` such that, for all `max_iter` and all
given inputs whose trajectory is closer than `q` to the solution, every iteration of `solve` (without initial regularisation, first step
size 1) accepts the full step, except that the last one may stop because the relative norm of the feedforward terms is below its
threshold, `solve` returns `true` unless all `max_iter` iterations were accepted full steps, and the distance from the solution after
`k` steps is at most `κ^k` times the initial one. -/
theorem C119_linear {κ : ℝ} (hκ : θ / ρ < κ) (hκ1 : κ < 1) : ∃ q : ℝ, 0 < q ∧
    ∀ (k : ℤ) (o : Obj n ℝ) (scratch : Scratch n (fun i => md (timeAt t0 dt i)) ℝ) (us : List (Σ k : ℕ, Vec k ℝ)) (d0 : ControlData n ℝ),
    us.length = N → DimsOk md t0 dt us → IsTrajectory p.callbacks t0 dt N x0 d0 → d0.us = us → trajDist md t0 dt N ds d0 < q →
    ∃ st fin, NearRun L p lim dt { cfg with maxIter := k } o t0 scratch x0 us st fin ∧
      trajDist md t0 dt N ds (solve L p.callbacks lim dt { cfg with maxIter := k } o t0 scratch x0 us).1.control ≤
        κ ^ st.length * trajDist md t0 dt N ds d0 := by
  obtain ⟨C, q1, hC, hq1, h⟩ := gn_solve (lim := lim) hL hw h2 hlm hk hlt ha h0 hN hr hρ hμ hθ hθρ hds hp
  have hκ0 : 0 ≤ κ := (div_nonneg hθ hρ.le).trans hκ.le
  have hgap : 0 < κ - θ / ρ := by linarith
  have hq0 : 0 < min q1 ((κ - θ / ρ) / (C + 1)) := lt_min hq1 (div_pos hgap (by linarith))
  have hstep : ∀ t, 0 ≤ t → t < min q1 ((κ - θ / ρ) / (C + 1)) → θ / ρ * t + C * t ^ 2 ≤ κ * t := by
    intro t ht htq
    have h3 : (C + 1) * t ≤ κ - θ / ρ := by
      have := (htq.trans_le (min_le_right _ _)).le
      rw [le_div_iff₀ (by linarith)] at this
      linarith
    have h4 : C * t ≤ κ - θ / ρ := by nlinarith
    nlinarith
  refine ⟨_, hq0, fun k o scratch us d0 hlen hd hd0 hu hdist => ?_⟩
  obtain ⟨st, fin, hrun, D, i1, i2, i3⟩ := h _ (min_le_left _ _)
    (fun t ht htq => (hstep t ht htq).trans (by nlinarith)) k o scratch us d0 hlen hd hd0 hu hdist
  refine ⟨st, fin, hrun, ?_⟩
  rw [← i3, ← i1]
  have : ∀ j, j ≤ st.length → D j ≤ κ ^ j * D 0 := by
    intro j
    induction j with
    | zero => simp
    | succ j ih =>
      intro hj
      obtain ⟨j1, j2, j3⟩ := i2 j
      refine (j3 hj).trans ((hstep _ j1 j2).trans ?_)
      rw [pow_succ', mul_assoc]
      exact mul_le_mul_of_nonneg_left (ih (by omega)) hκ0
  exact this _ le_rfl

/-- **C119** Quadratic convergence if the second derivatives of the dynamics do not matter at the solution (`θ = 0`: the dynamics are
affine in the ball, or the costates vanish there): there are `C` and a radius such that from any start closer than the radius, after `k`
steps `C` times the distance from the solution is at most its initial value, which is at most 1/2, to the power `2^k`. -/
theorem C119_quadratic (hz : θ = 0) : ∃ C q : ℝ, 0 < C ∧ 0 < q ∧ C * q ≤ 1 / 2 ∧
    ∀ (k : ℤ) (o : Obj n ℝ) (scratch : Scratch n (fun i => md (timeAt t0 dt i)) ℝ) (us : List (Σ k : ℕ, Vec k ℝ)) (d0 : ControlData n ℝ),
    us.length = N → DimsOk md t0 dt us → IsTrajectory p.callbacks t0 dt N x0 d0 → d0.us = us → trajDist md t0 dt N ds d0 < q →
    ∃ st fin, NearRun L p lim dt { cfg with maxIter := k } o t0 scratch x0 us st fin ∧
      C * trajDist md t0 dt N ds (solve L p.callbacks lim dt { cfg with maxIter := k } o t0 scratch x0 us).1.control ≤
        (C * trajDist md t0 dt N ds d0) ^ 2 ^ st.length := by
  obtain ⟨C, q1, hC, hq1, h⟩ := gn_solve (lim := lim) hL hw h2 hlm hk hlt ha h0 hN hr hρ hμ hθ hθρ hds hp
  have hq0 : 0 < min q1 (1 / 2 / (C + 1)) := lt_min hq1 (by positivity)
  have hCq : (C + 1) * min q1 (1 / 2 / (C + 1)) ≤ 1 / 2 := by
    have := min_le_right q1 (1 / 2 / (C + 1))
    rw [le_div_iff₀ (by linarith)] at this
    linarith
  refine ⟨C + 1, _, by linarith, hq0, hCq, fun k o scratch us d0 hlen hd hd0 hu hdist => ?_⟩
  obtain ⟨st, fin, hrun, D, i1, i2, i3⟩ := h _ (min_le_left _ _) (fun t ht htq => by
    rw [hz, zero_div, zero_mul, zero_add]
    have h3 : (C + 1) * t ≤ 1 / 2 := (mul_le_mul_of_nonneg_left htq.le (by linarith)).trans hCq
    have h4 : C * t ≤ 1 := by nlinarith
    nlinarith) k o scratch us d0 hlen hd hd0 hu hdist
  refine ⟨st, fin, hrun, ?_⟩
  rw [← i3, ← i1]
  have : ∀ j, j ≤ st.length → (C + 1) * D j ≤ ((C + 1) * D 0) ^ 2 ^ j := by
    intro j
    induction j with
    | zero => simp
    | succ j ih =>
      intro hj
      obtain ⟨j1, j2, j3⟩ := i2 j
      have h3 := j3 hj
      rw [hz, zero_div, zero_mul, zero_add] at h3
      have h4 : (C + 1) * D (j + 1) ≤ ((C + 1) * D j) ^ 2 := by nlinarith [sq_nonneg (D j)]
      refine h4.trans ((pow_le_pow_left₀ (by positivity) (ih (by omega)) 2).trans (le_of_eq ?_))
      rw [← pow_mul, ← pow_succ]
  exact this _ le_rfl

end Solve

end Nmpc.DDP
