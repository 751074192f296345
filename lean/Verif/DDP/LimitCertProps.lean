import Verif.DDP.LimitCert
import Verif.DDP.CertificateProps

/-!
# C132: what success of the DDP solver certifies with input limits (exact arithmetic)

`C132_stationary` and `C132_variational` concern arbitrary problems with convex Hessians, `C132_gap` convex linear-quadratic ones.
-/

namespace Nmpc.DDP

set_option linter.unusedSectionVars false

open Matrix Finset

/-- A backward pass (DDPSolver.hpp 349-537) with limits `lower`, `upper` at the inputs `u` and the derivatives `dF`, `dL`, `dV`: `lambda` is the
regularisation, `V` the value functions, `k` and `K` the gains. -/
structure LimitPass {n : ℕ} {m : ℕ → ℕ} (L : LLT ℝ) (cfg : Config ℝ) (N : ℕ) (lower upper u : (j : ℕ) → Vec (m j) ℝ)
    (dF : (j : ℕ) → FDeriv n (m j) ℝ) (dL : (j : ℕ) → LDeriv n (m j) ℝ) (dV : VDeriv n ℝ)
    (lambda : ℝ) (V : ℕ → VDeriv n ℝ) (k : (j : ℕ) → Vec (m j) ℝ) (K : (j : ℕ) → Mat (m j) n ℝ) : Prop where
  term : V N = dV
  value : ∀ j < N, V j = updateV (calcQ cfg lambda (dF j) (dL j) (V (j + 1))) (k j) (K j)
  gains : ∀ j < N, 0 < m j → constrainedGains L (calcQ cfg lambda (dF j) (dL j) (V (j + 1))) (lower j) (upper j) (u j)
    (initialK N ⟨k, K⟩ j) = .ok (some (k j, K j))

/-- Every quadratic program of the pass ended with code 5 (small gradient) or 6 (all inputs clamped). -/
def CertifiedPass {n : ℕ} {m : ℕ → ℕ} (L : LLT ℝ) (cfg : Config ℝ) (N : ℕ) (lower upper u : (j : ℕ) → Vec (m j) ℝ)
    (dF : (j : ℕ) → FDeriv n (m j) ℝ) (dL : (j : ℕ) → LDeriv n (m j) ℝ)
    (lambda : ℝ) (V : ℕ → VDeriv n ℝ) (k : (j : ℕ) → Vec (m j) ℝ) (K : (j : ℕ) → Mat (m j) n ℝ) : Prop :=
  ∀ j < N, 0 < m j → ∃ r, BoxQP.solve L BoxQP.Config.default (freshQP (m j))
    { H := (calcQ cfg lambda (dF j) (dL j) (V (j + 1))).QuuF, g := (calcQ cfg lambda (dF j) (dL j) (V (j + 1))).Qu
      lower := lower j - u j, upper := upper j - u j, init := initialK N ⟨k, K⟩ j } = .ok r ∧
    (r.obj.retval = 5 ∨ r.obj.retval = 6)

section Pass
variable {n : ℕ} {m : ℕ → ℕ} {L : LLT ℝ} {cfg : Config ℝ} {N : ℕ} {lower upper u : (j : ℕ) → Vec (m j) ℝ} {d : Derivs n m ℝ}
  {lambda : ℝ} {V : ℕ → VDeriv n ℝ} {k : (j : ℕ) → Vec (m j) ℝ} {K : (j : ℕ) → Mat (m j) n ℝ}

theorem LimitPass.psd (h : LimitPass L cfg N lower upper u d.F d.L d.V lambda V k K) (hM : ConvexModel N d) :
    ∀ i j, j + i = N → (V j).Vxx.PosSemidef := by
  intro i
  induction i with
  | zero => intro j hj; rw [show j = N by omega, h.term]; exact hM.term
  | succ i ih =>
    intro j hj
    have hVs := posSemidef_iff.1 (ih (j + 1) (by omega))
    rw [h.value j (by omega)]
    refine posSemidef_iff.2 ⟨updateV_symm _ _ _, fun dx => ?_⟩
    rw [updateV_quad]
    have h2 := calcQ_quad (cfg := cfg) (lambda := lambda) (d.F j) (d.L j) (V (j + 1)) hVs.1 dx (K j *ᵥ dx)
    have h3 := hM.stage j (by omega) dx (K j *ᵥ dx)
    have h4 := hVs.2 ((d.F j).Fx *ᵥ dx + (d.F j).Fu *ᵥ (K j *ᵥ dx))
    linarith

theorem LimitPass.facts (h : LimitPass L cfg N lower upper u d.F d.L d.V lambda V k K) (hL : L.Exact) (hM : ConvexModel N d)
    (hlu : ∀ j < N, ∀ i, lower j i ≤ upper j i) (hc : CertifiedPass L cfg N lower upper u d.F d.L lambda V k K) {j : ℕ} (hj : j < N) :
    CertFacts (calcQ cfg lambda (d.F j) (d.L j) (V (j + 1))) (lower j) (upper j) (u j) (k j) (K j) (1 / 10 ^ 8) := by
  rcases Nat.eq_zero_or_pos (m j) with hm | hm
  · have hE : IsEmpty (Fin (m j)) := by rw [hm]; infer_instance
    have hn : ∀ v : Vec (m j) ℝ, vnorm v = 0 := fun v => by rw [vnorm_real]; simp [dotProduct]
    exact ⟨fun i => hE.elim i, fun y _ => by rw [hn]; simp [dotProduct], fun ξ => by rw [hn]; simp [dotProduct], fun ξ => by simp [dotProduct]⟩
  · obtain ⟨r, hr, h56⟩ := hc j hj hm
    have hVs := (posSemidef_iff.1 (h.psd hM (N - (j + 1)) (j + 1) (by omega))).1
    exact CertifiedGains.facts hL (calcQ_QuuF_symm hVs (posDef_iff.1 (hM.input j hj)).1) (hlu j hj) ⟨_, r, h.gains j hj hm, hr, h56⟩

theorem LimitPass.within (h : LimitPass L cfg N lower upper u d.F d.L d.V lambda V k K)
    (hlu : ∀ j < N, ∀ i, lower j i ≤ upper j i) {j : ℕ} (hj : j < N) (i : Fin (m j)) :
    lower j i ≤ u j i + k j i ∧ u j i + k j i ≤ upper j i := by
  have hm : 0 < m j := by have := i.2; omega
  have hg := h.gains j hj hm
  rcases constrainedGains_out (L := L) (calcQ cfg lambda (d.F j) (d.L j) (V (j + 1))) (lower j) (upper j) (u j) (initialK N ⟨k, K⟩ j) with
    h' | ⟨r, hr, h'⟩
  · rw [h'.1] at hg; cases hg
  have hbox := BoxQP.C01_result_in_box_real (r := r) (fun i => by
    show lower j i - u j i ≤ upper j i - u j i
    linarith [hlu j hj i]) hr i
  have hx : k j = r.x := by
    rcases h' with h' | h' | h'
    · rw [h'.2] at hg; cases hg
    · rw [h'.2.2] at hg
      simp only [Res.ok.injEq, Option.some.injEq] at hg
      exact (Prod.ext_iff.1 hg).1.symm
    · rw [h'.2.2.2] at hg
      simp only [Res.ok.injEq, Option.some.injEq] at hg
      exact (Prod.ext_iff.1 hg).1.symm
  simp only [Pi.sub_apply] at hbox
  rw [hx]
  constructor <;> linarith [hbox.1, hbox.2]

/-- A backward pass of the solver is one. -/
theorem Chain.limitPass {S : Stages n m ℝ} {lim : (i : ℕ) → Vec (m i) ℝ × Vec (m i) ℝ} (hw : cfg.withConstraint = true) (hlim : S.lim = some lim)
    {c : Ctrl n m ℝ} {g : Gains n m ℝ} (h : Chain L N cfg S c d lambda N V g) (hV : V N = d.V) :
    LimitPass L cfg N (fun j => (lim j).1) (fun j => (lim j).2) c.u d.F d.L d.V lambda V g.k g.K := by
  refine ⟨hV, h.value, fun j hj hm => ?_⟩
  obtain ⟨g', h1, h2⟩ := h.gain j hj
  unfold stageGains at h2
  rw [if_pos hm, if_pos hw, hlim] at h2
  dsimp only at h2
  have h3 : initialK N g' j = initialK N ⟨g.k, g.K⟩ j := by
    unfold initialK
    rw [h1 (j + 1) (by omega)]
  rw [h3] at h2
  exact h2

end Pass

variable {n : ℕ} {md : ℝ → ℕ} {P : Callbacks n md} {p : LQProblem n md} {L : LLT ℝ} {cfg : Config ℝ}
  {lim : (t : ℝ) → Vec (md t) ℝ × Vec (md t) ℝ}
  {dt t0 : ℝ} {o : Obj n ℝ} {x0 : Vec n ℝ} {us : List (Σ k : ℕ, Vec k ℝ)}
  {scratch : Scratch n (fun i => md (timeAt t0 dt i)) ℝ}

/-- The derivatives at the result, and the pass that found the feedforward terms small. -/
theorem last_pass (hw : cfg.withConstraint = true) (h2 : cfg.useSecond = false) (hf : 1 < cfg.lambdaFactor) (hm : 0 < cfg.lambdaMin)
    (h0 : 0 ≤ cfg.initialLambda) (hle : cfg.initialLambda ≤ cfg.lambdaMax) (hpd : 0 < cfg.initialDlambda) (hα : (0 : ℝ) ∉ cfg.alphaList)
    (hN : (us.length : ℤ) = cfg.horizon) (hd : DimsOk md t0 dt us)
    (hres : (solve L P (some lim) dt cfg o t0 scratch x0 us).2 = .ok true) {e : Trace ℝ}
    (hlast : (solve L P (some lim) dt cfg o t0 scratch x0 us).1.trace.getLast? = some e) (he : e.alpha = 0)
    (x : ℕ → Vec n ℝ) (u : (j : ℕ) → Vec (md (timeAt t0 dt j)) ℝ)
    (hx : ∀ j ≤ us.length, (solve L P (some lim) dt cfg o t0 scratch x0 us).1.control.xs[j]? = some (x j))
    (hu : ∀ j < us.length, (solve L P (some lim) dt cfg o t0 scratch x0 us).1.control.us[j]? = some ⟨md (timeAt t0 dt j), u j⟩)
    (dF : (j : ℕ) → FDeriv n (md (timeAt t0 dt j)) ℝ) (dL : (j : ℕ) → LDeriv n (md (timeAt t0 dt j)) ℝ) (dV : VDeriv n ℝ)
    (hdF : ∀ j < us.length, ∀ b, P.stateEqDeriv (timeAt t0 dt j) (x j) (u j) b = dF j)
    (hdL : ∀ j < us.length, ∀ b, P.runningCostDeriv (timeAt t0 dt j) (x j) (u j) b = dL j)
    (hdV : ∀ b, P.terminalCostDeriv (timeAt t0 dt us.length) (x us.length) b = dV) :
    ∃ (c : Ctrl n (fun i => md (timeAt t0 dt i)) ℝ) (b : Derivs n (fun i => md (timeAt t0 dt i)) ℝ) (lambda : ℝ) (V : ℕ → VDeriv n ℝ)
      (k : (j : ℕ) → Vec (md (timeAt t0 dt j)) ℝ) (K : (j : ℕ) → Mat (md (timeAt t0 dt j)) n ℝ),
      (solve L P (some lim) dt cfg o t0 scratch x0 us).1.control = c.out us.length ∧
      Consistent us.length (stagesOf P (some lim) t0 dt us.length) x0 c ∧ (∀ j < us.length, c.u j = u j) ∧
      (∀ j < us.length, (calcDerivs us.length cfg (stagesOf P (some lim) t0 dt us.length) c b).F j = dF j) ∧
      (∀ j < us.length, (calcDerivs us.length cfg (stagesOf P (some lim) t0 dt us.length) c b).L j = dL j) ∧
      (calcDerivs us.length cfg (stagesOf P (some lim) t0 dt us.length) c b).V = dV ∧
      0 ≤ lambda ∧ lambda < cfg.lambdaThre ∧
      (∀ j < us.length, Real.sqrt (k j ⬝ᵥ k j) ≤ cfg.kRelNormThre * (Real.sqrt (u j ⬝ᵥ u j) + 1)) ∧
      LimitPass L cfg us.length (fun j => (lim (timeAt t0 dt j)).1) (fun j => (lim (timeAt t0 dt j)).2) u dF dL dV lambda V k K := by
  obtain ⟨j, s, s2, hr, hb, hk, hl, hctrl⟩ := small_exit hN hd hα hres hlast he
  have hl0 := reaches_bw_lambda hf hm h0 hle hpd hr hb
  have hc := reaches_consistent (rollout_consistent _ _) hr
  rw [hctrl] at hx hu
  obtain ⟨k1, k2, _, V, k3, k4, _, _⟩ := bwSearch_chain hb
  have hcx : ∀ j ≤ us.length, s.ctrl.x j = x j := fun j hj => by
    have := hx j hj
    simpa [Ctrl.out, List.getElem?_range (show j < us.length + 1 by omega)] using this
  have hcu : ∀ j < us.length, s.ctrl.u j = u j := fun j hj => out_us_eq hj (hu j hj)
  have hFd : ∀ j < us.length, s2.derivs.F j = dF j := fun j hj => by
    rw [k2]; simp only [calcDerivs, if_pos hj, h2]
    show P.stateEqDeriv (timeAt t0 dt j) _ _ _ = _
    rw [hcx j hj.le, hcu j hj]; exact hdF j hj _
  have hLd : ∀ j < us.length, s2.derivs.L j = dL j := fun j hj => by
    rw [k2]; simp only [calcDerivs, if_pos hj]
    show P.runningCostDeriv (timeAt t0 dt j) _ _ _ = _
    rw [hcx j hj.le, hcu j hj]; exact hdL j hj _
  have hVd : s2.derivs.V = dV := by
    rw [k2]
    show P.terminalCostDeriv (timeAt t0 dt us.length) _ _ = _
    rw [hcx _ le_rfl]; exact hdV _
  have hLP := k4.limitPass (lim := fun j => lim (timeAt t0 dt j)) hw rfl k3
  refine ⟨s.ctrl, s.derivs, s2.lambda, V, s2.gains.k, s2.gains.K, hctrl, hc, hcu, fun j hj => by rw [← k2]; exact hFd j hj,
    fun j hj => by rw [← k2]; exact hLd j hj, by rw [← k2]; exact hVd, hl0, hl, fun j hj => ?_, ?_⟩
  · have h3 := (kRelNorm_ge (s := s2) hj).trans hk.le
    have hn0 : 0 ≤ Real.sqrt (u j ⬝ᵥ u j) := Real.sqrt_nonneg _
    rw [k1, hcu j hj, vnorm_real (u j), div_le_iff₀ (by linarith)] at h3
    exact h3
  · refine ⟨by rw [hLP.term, hVd], fun j hj => ?_, fun j hj hm => ?_⟩
    · have := hLP.value j hj
      rw [hFd j hj, hLd j hj] at this
      exact this
    · have := hLP.gains j hj hm
      rw [hFd j hj, hLd j hj, hcu j hj] at this
      exact this

theorem hconv (hP : P.ConvexHess) {N : ℕ} {x : ℕ → Vec n ℝ} {u : (j : ℕ) → Vec (md (timeAt t0 dt j)) ℝ}
    {dF : (j : ℕ) → FDeriv n (md (timeAt t0 dt j)) ℝ} {dL : (j : ℕ) → LDeriv n (md (timeAt t0 dt j)) ℝ} {dV : VDeriv n ℝ}
    (hdL : ∀ j < N, ∀ b, P.runningCostDeriv (timeAt t0 dt j) (x j) (u j) b = dL j)
    (hdV : ∀ b, P.terminalCostDeriv (timeAt t0 dt N) (x N) b = dV) :
    ConvexModel N (⟨dF, dL, dV⟩ : Derivs n (fun i => md (timeAt t0 dt i)) ℝ) where
  stage j hj dx du := by
    show 0 ≤ dx ⬝ᵥ (dL j).Lxx *ᵥ dx + 2 * (dx ⬝ᵥ (dL j).Lxu *ᵥ du) + du ⬝ᵥ (dL j).Luu *ᵥ du
    rw [← hdL j hj ⟨0, 0, 0, 0, 0⟩]
    exact hP.stage _ _ _ _ dx du
  input j hj := by
    show (dL j).Luu.PosDef
    rw [← hdL j hj ⟨0, 0, 0, 0, 0⟩]
    exact hP.input _ _ _ _
  term := by
    show dV.Vxx.PosSemidef
    rw [← hdV ⟨0, 0⟩]
    exact hP.term _ _ _

theorem lq_convexHess (hp : p.Convex) : p.callbacks.ConvexHess where
  stage t _ _ _ dx du := hp.stage t dx du
  input t _ _ _ := hp.input t
  term t _ _ := hp.term t

theorem limit_step {a : ℕ} {G u v k : Vec a ℝ} {C κ : ℝ}
    (h : -(C * vnorm (u + v - (u + k))) ≤ G ⬝ᵥ (u + v - (u + k))) (hk : vnorm k ≤ κ) :
    -(C * Real.sqrt ((v - k) ⬝ᵥ (v - k)) + κ * Real.sqrt (G ⬝ᵥ G)) ≤ G ⬝ᵥ v := by
  rw [show u + v - (u + k) = v - k by abel, dotProduct_sub] at h
  have h1 := (abs_le.1 (abs_dot_le_vnorm G k)).1
  have h2 := mul_le_mul_of_nonneg_left hk (vnorm_nonneg G)
  change -(C * vnorm (v - k) + κ * vnorm G) ≤ _
  linarith

/-- **C132** (arbitrary problems with convex Hessians) Suppose the problem has non-empty input limits, `solve` returns `true` and no step was
tried in its last iteration.  Then there is a backward pass at `controlData()` with regularisation below `lambda_thre` and feedforward terms
`k` of relative size at most `k_rel_norm_thre`, the inputs `u + k` are within the limits, and if all quadratic programs of this pass
ended with code 5 or 6, then at every stage the gradient of the cost with respect to the input satisfies the optimality condition over
the limits at `u + k` up to a constant times `κ + 1e-8`.  The constant depends only on the bounds `f`, `l`, `μ` on the derivatives,
`lambda_thre` and the number of the later stages. -/
theorem C132_stationary (hL : L.Exact) (hw : cfg.withConstraint = true) (h2 : cfg.useSecond = false) (hP : P.ConvexHess)
    (hf : 1 < cfg.lambdaFactor) (hm : 0 < cfg.lambdaMin) (h0 : 0 ≤ cfg.initialLambda)
    (hle : cfg.initialLambda ≤ cfg.lambdaMax) (hpd : 0 < cfg.initialDlambda) (hα : (0 : ℝ) ∉ cfg.alphaList)
    (hlu : ∀ t i, (lim t).1 i ≤ (lim t).2 i) (hN : (us.length : ℤ) = cfg.horizon) (hd : DimsOk md t0 dt us)
    (hres : (solve L P (some lim) dt cfg o t0 scratch x0 us).2 = .ok true) {e : Trace ℝ}
    (hlast : (solve L P (some lim) dt cfg o t0 scratch x0 us).1.trace.getLast? = some e) (he : e.alpha = 0)
    (x : ℕ → Vec n ℝ) (u : (j : ℕ) → Vec (md (timeAt t0 dt j)) ℝ)
    (hx : ∀ j ≤ us.length, (solve L P (some lim) dt cfg o t0 scratch x0 us).1.control.xs[j]? = some (x j))
    (hu : ∀ j < us.length, (solve L P (some lim) dt cfg o t0 scratch x0 us).1.control.us[j]? = some ⟨md (timeAt t0 dt j), u j⟩)
    (dF : (j : ℕ) → FDeriv n (md (timeAt t0 dt j)) ℝ) (dL : (j : ℕ) → LDeriv n (md (timeAt t0 dt j)) ℝ) (dV : VDeriv n ℝ)
    (hdF : ∀ j < us.length, ∀ b, P.stateEqDeriv (timeAt t0 dt j) (x j) (u j) b = dF j)
    (hdL : ∀ j < us.length, ∀ b, P.runningCostDeriv (timeAt t0 dt j) (x j) (u j) b = dL j)
    (hdV : ∀ b, P.terminalCostDeriv (timeAt t0 dt us.length) (x us.length) b = dV)
    {f l μ : ℝ} (hf0 : 0 ≤ f) (hl0 : 0 ≤ l) (hμ : 0 < μ)
    (hB : DataBounds us.length (⟨dF, dL, dV⟩ : Derivs n (fun i => md (timeAt t0 dt i)) ℝ) f l μ)
    {κ : ℝ} (hκ : ∀ j < us.length, cfg.kRelNormThre * (Real.sqrt (u j ⬝ᵥ u j) + 1) ≤ κ)
    (q : ℕ → Vec n ℝ) (hqN : q us.length = dV.Vx) (hq : ∀ j < us.length, q j = (dL j).Lx + (dF j).Fxᵀ *ᵥ q (j + 1)) :
    ∃ (lambda : ℝ) (V : ℕ → VDeriv n ℝ) (k : (j : ℕ) → Vec (md (timeAt t0 dt j)) ℝ) (K : (j : ℕ) → Mat (md (timeAt t0 dt j)) n ℝ),
      0 ≤ lambda ∧ lambda < cfg.lambdaThre ∧
      (∀ j < us.length, Real.sqrt (k j ⬝ᵥ k j) ≤ cfg.kRelNormThre * (Real.sqrt (u j ⬝ᵥ u j) + 1)) ∧
      LimitPass L cfg us.length (fun j => (lim (timeAt t0 dt j)).1) (fun j => (lim (timeAt t0 dt j)).2) u dF dL dV lambda V k K ∧
      (∀ j < us.length, ∀ i, (lim (timeAt t0 dt j)).1 i ≤ u j i + k j i ∧ u j i + k j i ≤ (lim (timeAt t0 dt j)).2 i) ∧
      (CertifiedPass L cfg us.length (fun j => (lim (timeAt t0 dt j)).1) (fun j => (lim (timeAt t0 dt j)).2) u dF dL lambda V k K →
        ∀ j < us.length, ∀ y : Vec (md (timeAt t0 dt j)) ℝ,
          (∀ i, (lim (timeAt t0 dt j)).1 i ≤ y i ∧ y i ≤ (lim (timeAt t0 dt j)).2 i) →
          -(limitBound f l μ cfg.lambdaThre (us.length - (j + 1)) * (κ + 1 / 10 ^ 8) *
              Real.sqrt ((y - (u j + k j)) ⬝ᵥ (y - (u j + k j)))) ≤
            ((dL j).Lu + (dF j).Fuᵀ *ᵥ q (j + 1)) ⬝ᵥ (y - (u j + k j))) := by
  obtain ⟨c, b, lambda, V, k, K, c1, c2, c3, c4, c5, c6, c7, c8, c9, c10⟩ := last_pass hw h2 hf hm h0 hle hpd hα hN hd hres hlast he x u hx hu
    dF dL dV hdF hdL hdV
  have hM : ConvexModel us.length (⟨dF, dL, dV⟩ : Derivs n (fun i => md (timeAt t0 dt i)) ℝ) := hconv hP hdL hdV
  have hpass : LimitPass L cfg us.length (fun j => (lim (timeAt t0 dt j)).1) (fun j => (lim (timeAt t0 dt j)).2) u
    (⟨dF, dL, dV⟩ : Derivs n (fun i => md (timeAt t0 dt i)) ℝ).F (⟨dF, dL, dV⟩ : Derivs n (fun i => md (timeAt t0 dt i)) ℝ).L
    (⟨dF, dL, dV⟩ : Derivs n (fun i => md (timeAt t0 dt i)) ℝ).V lambda V k K := c10
  refine ⟨lambda, V, k, K, c7, c8, c9, c10, fun j hj i => hpass.within (fun j _ => hlu _) hj i, fun hc j hj y hy => ?_⟩
  exact chain_opt hpass.term hpass.value hM hB hf0 hl0 hμ c7 c8.le (by norm_num) (fun j hj => hpass.facts hL hM (fun j _ => hlu _) hc hj)
    (fun j hj => (c9 j hj).trans (hκ j hj)) hqN hq hj hy

/-- **C132** (true derivatives) If moreover the problem returns true first derivatives along the result, then in every direction `v` for which
`u + v` is within the limits the total cost has a derivative that is not below
`-∑ (C_j (κ + 1e-8) ‖v_j - k_j‖ + κ ‖G_j‖)`, where `G_j` is the gradient with respect to the input of stage `j`. -/
theorem C132_variational (hL : L.Exact) (hw : cfg.withConstraint = true) (h2 : cfg.useSecond = false) (hP : P.ConvexHess)
    (hf : 1 < cfg.lambdaFactor) (hm : 0 < cfg.lambdaMin) (h0 : 0 ≤ cfg.initialLambda)
    (hle : cfg.initialLambda ≤ cfg.lambdaMax) (hpd : 0 < cfg.initialDlambda) (hα : (0 : ℝ) ∉ cfg.alphaList)
    (hlu : ∀ t i, (lim t).1 i ≤ (lim t).2 i) (hN : (us.length : ℤ) = cfg.horizon) (hd : DimsOk md t0 dt us)
    (hres : (solve L P (some lim) dt cfg o t0 scratch x0 us).2 = .ok true) {e : Trace ℝ}
    (hlast : (solve L P (some lim) dt cfg o t0 scratch x0 us).1.trace.getLast? = some e) (he : e.alpha = 0)
    (x : ℕ → Vec n ℝ) (u : (j : ℕ) → Vec (md (timeAt t0 dt j)) ℝ)
    (hx : ∀ j ≤ us.length, (solve L P (some lim) dt cfg o t0 scratch x0 us).1.control.xs[j]? = some (x j))
    (hu : ∀ j < us.length, (solve L P (some lim) dt cfg o t0 scratch x0 us).1.control.us[j]? = some ⟨md (timeAt t0 dt j), u j⟩)
    (dF : (j : ℕ) → FDeriv n (md (timeAt t0 dt j)) ℝ) (dL : (j : ℕ) → LDeriv n (md (timeAt t0 dt j)) ℝ) (dV : VDeriv n ℝ)
    (hdF : ∀ j < us.length, ∀ b, P.stateEqDeriv (timeAt t0 dt j) (x j) (u j) b = dF j)
    (hdL : ∀ j < us.length, ∀ b, P.runningCostDeriv (timeAt t0 dt j) (x j) (u j) b = dL j)
    (hdV : ∀ b, P.terminalCostDeriv (timeAt t0 dt us.length) (x us.length) b = dV)
    {f l μ : ℝ} (hf0 : 0 ≤ f) (hl0 : 0 ≤ l) (hμ : 0 < μ)
    (hB : DataBounds us.length (⟨dF, dL, dV⟩ : Derivs n (fun i => md (timeAt t0 dt i)) ℝ) f l μ)
    {κ : ℝ} (hκ : ∀ j < us.length, cfg.kRelNormThre * (Real.sqrt (u j ⬝ᵥ u j) + 1) ≤ κ)
    (q : ℕ → Vec n ℝ) (hqN : q us.length = dV.Vx) (hq : ∀ j < us.length, q j = (dL j).Lx + (dF j).Fxᵀ *ᵥ q (j + 1))
    (hF : FirstOrderAlong P t0 dt us.length (solve L P (some lim) dt cfg o t0 scratch x0 us).1.control) :
    ∃ (lambda : ℝ) (V : ℕ → VDeriv n ℝ) (k : (j : ℕ) → Vec (md (timeAt t0 dt j)) ℝ) (K : (j : ℕ) → Mat (md (timeAt t0 dt j)) n ℝ),
      0 ≤ lambda ∧ lambda < cfg.lambdaThre ∧
      (∀ j < us.length, Real.sqrt (k j ⬝ᵥ k j) ≤ cfg.kRelNormThre * (Real.sqrt (u j ⬝ᵥ u j) + 1)) ∧
      LimitPass L cfg us.length (fun j => (lim (timeAt t0 dt j)).1) (fun j => (lim (timeAt t0 dt j)).2) u dF dL dV lambda V k K ∧
      (CertifiedPass L cfg us.length (fun j => (lim (timeAt t0 dt j)).1) (fun j => (lim (timeAt t0 dt j)).2) u dF dL lambda V k K →
        ∀ (v : (j : ℕ) → Vec (md (timeAt t0 dt j)) ℝ) (D : ℝ → ControlData n ℝ),
          InputVariation P t0 dt us.length x0 (solve L P (some lim) dt cfg o t0 scratch x0 us).1.control v D →
          (∀ j < us.length, ∀ i, (lim (timeAt t0 dt j)).1 i ≤ u j i + v j i ∧ u j i + v j i ≤ (lim (timeAt t0 dt j)).2 i) →
          ∃ δ, HasDerivAt (fun s => (D s).costs.sum) δ 0 ∧
            -∑ j ∈ range us.length, (limitBound f l μ cfg.lambdaThre (us.length - (j + 1)) * (κ + 1 / 10 ^ 8) *
                Real.sqrt ((v j - k j) ⬝ᵥ (v j - k j)) +
              κ * Real.sqrt (((dL j).Lu + (dF j).Fuᵀ *ᵥ q (j + 1)) ⬝ᵥ ((dL j).Lu + (dF j).Fuᵀ *ᵥ q (j + 1)))) ≤ δ) := by
  obtain ⟨c, b, lambda, V, k, K, c1, c2, c3, c4, c5, c6, c7, c8, c9, c10⟩ := last_pass hw h2 hf hm h0 hle hpd hα hN hd hres hlast he x u hx hu
    dF dL dV hdF hdL hdV
  have hM : ConvexModel us.length (⟨dF, dL, dV⟩ : Derivs n (fun i => md (timeAt t0 dt i)) ℝ) := hconv hP hdL hdV
  have hpass : LimitPass L cfg us.length (fun j => (lim (timeAt t0 dt j)).1) (fun j => (lim (timeAt t0 dt j)).2) u
    (⟨dF, dL, dV⟩ : Derivs n (fun i => md (timeAt t0 dt i)) ℝ).F (⟨dF, dL, dV⟩ : Derivs n (fun i => md (timeAt t0 dt i)) ℝ).L
    (⟨dF, dL, dV⟩ : Derivs n (fun i => md (timeAt t0 dt i)) ℝ).V lambda V k K := c10
  refine ⟨lambda, V, k, K, c7, c8, c9, c10, fun hc v D hD hv => ?_⟩
  rw [c1] at hD hF
  set d := calcDerivs us.length cfg (stagesOf P (some lim) t0 dt us.length) c b with hdd
  have hat : FirstOrderAt us.length (stagesOf P (some lim) t0 dt us.length) c d := hF.at h2 _
  have hder := hasDerivAt_cost (g := ⟨v, fun _ => 0⟩) c2 hat
  refine ⟨slope us.length d ⟨v, fun _ => 0⟩, ?_, ?_⟩
  · refine hder.congr_of_eventuallyEq (Filter.Eventually.of_forall fun a => ?_)
    show (D a).costs.sum = _
    rw [hD.eq c2, totalCost_out]
  · rw [slope_adjoint v (p := q) (by rw [c6]; exact hqN) (fun j hj => by rw [c4 j hj, c5 j hj]; exact hq j hj), ← sum_neg_distrib]
    refine sum_le_sum fun j hj => ?_
    have hj := mem_range.1 hj
    rw [c4 j hj, c5 j hj]
    have h1 := chain_opt hpass.term hpass.value hM hB hf0 hl0 hμ c7 c8.le (by norm_num)
      (fun j hj => hpass.facts hL hM (fun j _ => hlu _) hc hj)
      (fun j hj => (c9 j hj).trans (hκ j hj)) hqN hq hj (y := u j + v j) (hv j hj)
    exact limit_step h1 ((c9 j hj).trans (hκ j hj))

/-- **C132** (convex linear-quadratic problems) Under the same conditions the total cost of the result exceeds that of every trajectory from the
given state with inputs `w` within the limits by at most `∑ (C_j (κ + 1e-8) ‖w_j - (u_j + k_j)‖ + κ ‖G_j‖)`. -/
theorem C132_gap (hL : L.Exact) (hw : cfg.withConstraint = true) (h2 : cfg.useSecond = false) (hp : p.Convex)
    (hf : 1 < cfg.lambdaFactor) (hm : 0 < cfg.lambdaMin) (h0 : 0 ≤ cfg.initialLambda)
    (hle : cfg.initialLambda ≤ cfg.lambdaMax) (hpd : 0 < cfg.initialDlambda) (hα : (0 : ℝ) ∉ cfg.alphaList)
    (hlu : ∀ t i, (lim t).1 i ≤ (lim t).2 i) (hN : (us.length : ℤ) = cfg.horizon) (hd : DimsOk md t0 dt us)
    (hres : (solve L p.callbacks (some lim) dt cfg o t0 scratch x0 us).2 = .ok true) {e : Trace ℝ}
    (hlast : (solve L p.callbacks (some lim) dt cfg o t0 scratch x0 us).1.trace.getLast? = some e) (he : e.alpha = 0)
    (x : ℕ → Vec n ℝ) (u : (j : ℕ) → Vec (md (timeAt t0 dt j)) ℝ)
    (hx : ∀ j ≤ us.length, (solve L p.callbacks (some lim) dt cfg o t0 scratch x0 us).1.control.xs[j]? = some (x j))
    (hu : ∀ j < us.length, (solve L p.callbacks (some lim) dt cfg o t0 scratch x0 us).1.control.us[j]? = some ⟨md (timeAt t0 dt j), u j⟩)
    (dF : (j : ℕ) → FDeriv n (md (timeAt t0 dt j)) ℝ) (dL : (j : ℕ) → LDeriv n (md (timeAt t0 dt j)) ℝ) (dV : VDeriv n ℝ)
    (hdF : ∀ j < us.length, ∀ b, p.callbacks.stateEqDeriv (timeAt t0 dt j) (x j) (u j) b = dF j)
    (hdL : ∀ j < us.length, ∀ b, p.callbacks.runningCostDeriv (timeAt t0 dt j) (x j) (u j) b = dL j)
    (hdV : ∀ b, p.callbacks.terminalCostDeriv (timeAt t0 dt us.length) (x us.length) b = dV)
    {f l μ : ℝ} (hf0 : 0 ≤ f) (hl0 : 0 ≤ l) (hμ : 0 < μ)
    (hB : DataBounds us.length (⟨dF, dL, dV⟩ : Derivs n (fun i => md (timeAt t0 dt i)) ℝ) f l μ)
    {κ : ℝ} (hκ : ∀ j < us.length, cfg.kRelNormThre * (Real.sqrt (u j ⬝ᵥ u j) + 1) ≤ κ)
    (q : ℕ → Vec n ℝ) (hqN : q us.length = dV.Vx) (hq : ∀ j < us.length, q j = (dL j).Lx + (dF j).Fxᵀ *ᵥ q (j + 1)) :
    ∃ (lambda : ℝ) (V : ℕ → VDeriv n ℝ) (k : (j : ℕ) → Vec (md (timeAt t0 dt j)) ℝ) (K : (j : ℕ) → Mat (md (timeAt t0 dt j)) n ℝ),
      0 ≤ lambda ∧ lambda < cfg.lambdaThre ∧
      (∀ j < us.length, Real.sqrt (k j ⬝ᵥ k j) ≤ cfg.kRelNormThre * (Real.sqrt (u j ⬝ᵥ u j) + 1)) ∧
      LimitPass L cfg us.length (fun j => (lim (timeAt t0 dt j)).1) (fun j => (lim (timeAt t0 dt j)).2) u dF dL dV lambda V k K ∧
      (CertifiedPass L cfg us.length (fun j => (lim (timeAt t0 dt j)).1) (fun j => (lim (timeAt t0 dt j)).2) u dF dL lambda V k K →
        ∀ (D : ControlData n ℝ) (w : (j : ℕ) → Vec (md (timeAt t0 dt j)) ℝ), IsTrajectory p.callbacks t0 dt us.length x0 D →
          (∀ j < us.length, D.us[j]? = some ⟨md (timeAt t0 dt j), w j⟩) →
          (∀ j < us.length, ∀ i, (lim (timeAt t0 dt j)).1 i ≤ w j i ∧ w j i ≤ (lim (timeAt t0 dt j)).2 i) →
          (solve L p.callbacks (some lim) dt cfg o t0 scratch x0 us).1.control.costs.sum ≤ D.costs.sum +
            ∑ j ∈ range us.length, (limitBound f l μ cfg.lambdaThre (us.length - (j + 1)) * (κ + 1 / 10 ^ 8) *
                Real.sqrt ((w j - (u j + k j)) ⬝ᵥ (w j - (u j + k j))) +
              κ * Real.sqrt (((dL j).Lu + (dF j).Fuᵀ *ᵥ q (j + 1)) ⬝ᵥ ((dL j).Lu + (dF j).Fuᵀ *ᵥ q (j + 1))))) := by
  obtain ⟨c, b, lambda, V, k, K, c1, c2, c3, c4, c5, c6, c7, c8, c9, c10⟩ := last_pass hw h2 hf hm h0 hle hpd hα hN hd hres hlast he x u hx hu
    dF dL dV hdF hdL hdV
  have hM : ConvexModel us.length (⟨dF, dL, dV⟩ : Derivs n (fun i => md (timeAt t0 dt i)) ℝ) := hconv (lq_convexHess hp) hdL hdV
  have hpass : LimitPass L cfg us.length (fun j => (lim (timeAt t0 dt j)).1) (fun j => (lim (timeAt t0 dt j)).2) u
    (⟨dF, dL, dV⟩ : Derivs n (fun i => md (timeAt t0 dt i)) ℝ).F (⟨dF, dL, dV⟩ : Derivs n (fun i => md (timeAt t0 dt i)) ℝ).L
    (⟨dF, dL, dV⟩ : Derivs n (fun i => md (timeAt t0 dt i)) ℝ).V lambda V k K := c10
  refine ⟨lambda, V, k, K, c7, c8, c9, c10, fun hc D w hD hwu hw' => ?_⟩
  obtain ⟨c', hc', rfl⟩ := hD.exists_ctrl (lim := some lim)
  have hcw : ∀ j < us.length, c'.u j = w j := fun j hj => out_us_eq hj (hwu j hj)
  rw [c1, totalCost_out, totalCost_out]
  set d := calcDerivs us.length cfg (stagesOf p.callbacks (some lim) t0 dt us.length) c b with hdd
  have hE := lq_exactModel (p := p) (lim := some lim) (cfg := cfg) (N := us.length) c b
  have hMd := lq_convexModel (lim := some lim) (cfg := cfg) (N := us.length) hp c b
  rw [← hdd] at hE hMd
  have hcost := exact_cost hE c2 hc'
  have hcv := curv_nonneg (g := (⟨fun j => c'.u j - c.u j, fun _ => 0⟩ : Gains n (fun i => md (timeAt t0 dt i)) ℝ)) hMd
  rw [slope_adjoint (fun j => c'.u j - c.u j) (p := q) (by rw [c6]; exact hqN) (fun j hj => by rw [c4 j hj, c5 j hj]; exact hq j hj)] at hcost
  have hsum : -∑ j ∈ range us.length, (limitBound f l μ cfg.lambdaThre (us.length - (j + 1)) * (κ + 1 / 10 ^ 8) *
                Real.sqrt ((w j - (u j + k j)) ⬝ᵥ (w j - (u j + k j))) +
              κ * Real.sqrt (((dL j).Lu + (dF j).Fuᵀ *ᵥ q (j + 1)) ⬝ᵥ ((dL j).Lu + (dF j).Fuᵀ *ᵥ q (j + 1)))) ≤
      ∑ j ∈ range us.length, ((d.L j).Lu + (d.F j).Fuᵀ *ᵥ q (j + 1)) ⬝ᵥ (c'.u j - c.u j) := by
    rw [← sum_neg_distrib]
    refine sum_le_sum fun j hj => ?_
    have hj := mem_range.1 hj
    rw [c4 j hj, c5 j hj, hcw j hj, c3 j hj]
    have h1 := chain_opt hpass.term hpass.value hM hB hf0 hl0 hμ c7 c8.le (by norm_num)
      (fun j hj => hpass.facts hL hM (fun j _ => hlu _) hc hj)
      (fun j hj => (c9 j hj).trans (hκ j hj)) hqN hq hj (y := w j) (hw' j hj)
    have h3 := limit_step (v := w j - u j) (u := u j) (k := k j) (by rw [add_sub_cancel]; exact h1) ((c9 j hj).trans (hκ j hj))
    rw [show w j - u j - k j = w j - (u j + k j) by abel] at h3
    exact h3
  linarith

end Nmpc.DDP
