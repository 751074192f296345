import Verif.Problems.Model
import Verif.DDP.LQReg
import Verif.DDP.Witness

/-!
# C65: DDP on the shipped linear-quadratic examples (exact arithmetic)

The bipedal walking and the vertical motion example are convex linear-quadratic problems, so that C17, C18, C22 and C64
apply to them.
-/

namespace Nmpc.Problems

set_option linter.unusedSectionVars false

open Matrix DDP

/-- The bipedal example as a linear-quadratic problem. -/
noncomputable def Bipedal.lq (p : Bipedal ℝ) (dt : ℝ) : LQProblem 2 (fun _ => 1) where
  A := p.A dt
  B := p.B dt
  c _ := 0
  Q _ := !![0, 0; 0, p.runningVel]
  M _ := 0
  R _ := !![p.runningZmp]
  q _ := 0
  r t := ![-(p.runningZmp * p.refZmp t)]
  e t := p.runningZmp / 2 * (p.refZmp t * p.refZmp t)
  Qf _ := !![p.terminalPos, 0; 0, p.terminalVel]
  qf t := ![-(p.terminalPos * p.refZmp t), 0]
  ef t := p.terminalPos / 2 * (p.refZmp t * p.refZmp t)
  symmQ _ := by ext i j; fin_cases i <;> fin_cases j <;> rfl
  symmR _ := by ext i j; fin_cases i; fin_cases j; rfl
  symmQf _ := by ext i j; fin_cases i <;> fin_cases j <;> rfl

theorem Bipedal.ddp_eq (p : Bipedal ℝ) (dt : ℝ) : p.ddp dt = (p.lq dt).callbacks := by
  unfold Bipedal.ddp LQProblem.callbacks Bipedal.lq
  congr 1
  · funext t x u
    simp
  · funext t x u
    simp [dotProduct, mulVec, Fin.sum_univ_two]
    ring
  · funext t x
    simp [dotProduct, mulVec, Fin.sum_univ_two]
    ring
  · funext t x u b
    congr 1
    · funext i; fin_cases i <;> simp [dotProduct, Fin.sum_univ_two]
    · funext i; fin_cases i; simp [dotProduct]; ring
    · ext i j; fin_cases i <;> fin_cases j <;> rfl
  · funext t x b
    congr 1
    funext i; fin_cases i <;> simp [dotProduct, Fin.sum_univ_two]; ring

theorem Bipedal.convex {p : Bipedal ℝ} (dt : ℝ) (h1 : 0 ≤ p.runningVel) (h2 : 0 < p.runningZmp) (h3 : 0 ≤ p.terminalPos)
    (h4 : 0 ≤ p.terminalVel) : (p.lq dt).Convex where
  stage t x u := by
    simp [Bipedal.lq, dotProduct, mulVec, Fin.sum_univ_two]
    nlinarith [mul_nonneg h1 (mul_self_nonneg (x 1)), mul_nonneg h2.le (mul_self_nonneg (u 0))]
  input t := by
    refine posDef_iff.2 ⟨(p.lq dt).symmR t, fun v hv => ?_⟩
    have hv0 : v 0 ≠ 0 := fun h => hv (by funext i; fin_cases i; exact h)
    simp [Bipedal.lq, dotProduct, mulVec]
    nlinarith [mul_pos h2 (mul_self_pos.2 hv0)]
  term t := by
    refine posSemidef_iff.2 ⟨(p.lq dt).symmQf t, fun v => ?_⟩
    simp [Bipedal.lq, dotProduct, mulVec, Fin.sum_univ_two]
    nlinarith [mul_nonneg h3 (mul_self_nonneg (v 0)), mul_nonneg h4 (mul_self_nonneg (v 1))]

/-- The vertical motion example (without the smooth absolute value) as a linear-quadratic problem. -/
noncomputable def Vertical.lq (p : Vertical ℝ) (dt : ℝ) : LQProblem 2 (Vertical.inputDim (α := ℝ)) where
  A _ := !![1, dt; 0, 1]
  B _ := fun i _ => ![0, dt / p.mass] i
  c _ := ![0, -(dt * grav)]
  Q _ := diag p.runningX
  M _ := 0
  R _ := diag fun _ => p.runningU
  q t := ![-(p.runningX 0 * p.refPos t), 0]
  r _ := 0
  e t := p.runningX 0 / 2 * (p.refPos t * p.refPos t)
  Qf _ := diag p.terminalX
  qf t := ![-(p.terminalX 0 * p.refPos t), 0]
  ef t := p.terminalX 0 / 2 * (p.refPos t * p.refPos t)
  symmQ _ := by ext i j; simp only [transpose_apply, diag]; split_ifs <;> simp_all
  symmR _ := by ext i j; simp only [transpose_apply, diag]; split_ifs <;> simp_all
  symmQf _ := by ext i j; simp only [transpose_apply, diag]; split_ifs <;> simp_all

theorem diag_mulVec {n : ℕ} (w v : Vec n ℝ) : diag w *ᵥ v = cwise w v := by
  funext i
  simp only [mulVec, dotProduct, diag, cwise, ite_mul, zero_mul, Finset.sum_ite_eq, Finset.mem_univ, if_true]

theorem Vertical.ddp_eq (p : Vertical ℝ) (dt : ℝ) (hs : p.smooth = false) : p.ddp dt = (p.lq dt).callbacks := by
  unfold Vertical.ddp LQProblem.callbacks Vertical.lq
  have hB : ∀ (k : ℕ) (u : Vec k ℝ), (fun (i : Fin 2) (_ : Fin k) => (![0, dt / p.mass] : Vec 2 ℝ) i) *ᵥ u =
      ![0, dt / p.mass * ∑ j, u j] := by
    intro k u
    funext i
    fin_cases i
    · simp [mulVec, dotProduct]
    · simp [mulVec, dotProduct, Finset.mul_sum]
  have hA : addDiag (scaleM dt !![(0 : ℝ), 1; 0, 0]) = !![1, dt; 0, 1] := by
    ext i j; fin_cases i <;> fin_cases j <;> simp [addDiag, scaleM]
  have hBd : ∀ k, (scaleM dt fun (i : Fin 2) (_ : Fin k) => (![0, lit 1 / p.mass] : Vec 2 ℝ) i) =
      fun i _ => (![0, dt / p.mass] : Vec 2 ℝ) i := by
    intro k
    ext i j
    fin_cases i
    · simp [scaleM]
    · simp [scaleM, mul_comm, div_eq_mul_inv]
  congr 1
  · funext t x u
    rw [hB]
    funext i
    fin_cases i
    · simp [Vertical.stateEq, dotProduct, Fin.sum_univ_two]
    · simp [Vertical.stateEq, dotProduct, Fin.sum_univ_two]; ring
  · funext t x u
    simp only [Vertical.runningCost, hs, diag_mulVec, Vertical.ref]
    have h : u ⬝ᵥ cwise (fun _ => p.runningU) u = p.runningU * (u ⬝ᵥ u) := by
      simp only [dotProduct, cwise, Finset.mul_sum]
      exact Finset.sum_congr rfl fun i _ => by ring
    rw [h, show sqNorm u = u ⬝ᵥ u from dot_real u u]
    generalize u ⬝ᵥ u = U
    simp [dotProduct, abs2, cwise, Fin.sum_univ_two, vecHead, vecTail]
    ring
  · funext t x
    simp only [diag_mulVec, Vertical.ref]
    simp [dotProduct, abs2, cwise, Fin.sum_univ_two, vecHead, vecTail]
    ring
  · funext t x u b
    rw [hA, hBd]
  · funext t x u b
    rw [hA, hBd]
  · funext t x u b
    unfold Vertical.runningCostDeriv
    congr 1
    · simp only [diag_mulVec, Vertical.ref]
      funext i; fin_cases i <;> simp [cwise]; ring
    · simp only [diag_mulVec, hs]
      funext i; simp [cwise]
    · simp only [hs]
      ext i j; simp [scaleM, identM, diag]
  · funext t x b
    congr 1
    simp only [diag_mulVec, Vertical.ref]
    funext i; fin_cases i <;> simp [cwise]; ring

theorem Vertical.convex {p : Vertical ℝ} (dt : ℝ) (h1 : ∀ i, 0 ≤ p.runningX i) (h2 : 0 < p.runningU)
    (h3 : ∀ i, 0 ≤ p.terminalX i) : (p.lq dt).Convex where
  stage t x u := by
    simp only [Vertical.lq, diag_mulVec, zero_mulVec, dotProduct_zero, mul_zero, add_zero]
    refine add_nonneg (Finset.sum_nonneg fun i _ => ?_) (Finset.sum_nonneg fun i _ => ?_)
    · have := mul_nonneg (h1 i) (mul_self_nonneg (x i)); simp only [cwise]; linarith
    · have := mul_nonneg h2.le (mul_self_nonneg (u i)); simp only [cwise]; linarith
  input t := by
    refine posDef_iff.2 ⟨(p.lq dt).symmR t, fun v hv => ?_⟩
    obtain ⟨i, hi⟩ : ∃ i, v i ≠ 0 := by
      by_contra h
      push Not at h
      exact hv (funext h)
    simp only [Vertical.lq, diag_mulVec]
    refine Finset.sum_pos' (fun i _ => ?_) ⟨i, Finset.mem_univ _, ?_⟩
    · have := mul_nonneg h2.le (mul_self_nonneg (v i)); simp only [cwise]; linarith
    · have := mul_pos h2 (mul_self_pos.2 hi); simp only [cwise]; linarith
  term t := by
    refine posSemidef_iff.2 ⟨(p.lq dt).symmQf t, fun v => ?_⟩
    simp only [Vertical.lq, diag_mulVec]
    refine Finset.sum_nonneg fun i _ => ?_
    have := mul_nonneg (h3 i) (mul_self_nonneg (v i)); simp only [cwise]; linarith

/-! ## The default configuration -/

/-- With the default configuration the regularisation coefficient is zero after five accepted iterations. -/
theorem default_reg (as : List ℝ) (maxIter horizon : ℤ) :
    ((decReg (defaultConfig as maxIter horizon))^[5] ((defaultConfig as maxIter horizon).initialLambda,
      (defaultConfig as maxIter horizon).initialDlambda)).1 = 0 := by
  have step : ∀ a b : ℝ, 1 / 10 ^ 6 ≤ a → b ≤ 1 → decReg (defaultConfig as maxIter horizon) (a, b) = (a * (b * (5 / 8)), b * (5 / 8)) := by
    intro a b h1 h2
    have h3 : min (b / (16 / 10 : ℝ)) (1 / (16 / 10)) = b * (5 / 8) := by
      rw [min_eq_left (by linarith)]; ring
    simp only [decReg, defaultConfig, lit_real]
    push_cast
    rw [h3, if_pos h1]
  have last : ∀ a b : ℝ, a < 1 / 10 ^ 6 → (decReg (defaultConfig as maxIter horizon) (a, b)).1 = 0 := by
    intro a b h1
    simp only [decReg, defaultConfig, lit_real]
    push_cast
    rw [if_neg (not_le.2 h1)]
  have h0 : ((defaultConfig as maxIter horizon).initialLambda, (defaultConfig as maxIter horizon).initialDlambda) =
      ((1 / 10 ^ 4 : ℝ), (1 : ℝ)) := by
    simp [defaultConfig]
  rw [h0]
  simp only [Function.iterate_succ, Function.iterate_zero, Function.comp_apply, id_eq]
  rw [step (1 / 10 ^ 4) 1 (by norm_num) le_rfl, step _ (1 * (5 / 8)) (by norm_num) (by norm_num),
    step _ (1 * (5 / 8) * (5 / 8)) (by norm_num) (by norm_num), step _ (1 * (5 / 8) * (5 / 8) * (5 / 8)) (by norm_num) (by norm_num),
    last _ _ (by norm_num)]

variable {L : LLT ℝ} {dt t0 : ℝ} {o : Obj 2 ℝ} {x0 : Vec 2 ℝ} {us : List (Σ k : ℕ, Vec k ℝ)} {as : List ℝ} {maxIter : ℤ}

/-- **C64** The default configuration: any convex linear-quadratic problem, at least seven iterations. -/
theorem C64_default {n : ℕ} {md : ℝ → ℕ} {p : LQProblem n md} {lim : Option ((t : ℝ) → Vec (md t) ℝ × Vec (md t) ℝ)}
    {o : Obj n ℝ} {x0 : Vec n ℝ} {scratch : Scratch n (fun i => md (timeAt t0 dt i)) ℝ}
    (hL : L.Exact) (hp : p.Convex) (hm : 7 ≤ maxIter) (hd : DimsOk md t0 dt us) :
    let r := solve L p.callbacks lim dt (defaultConfig (1 :: as) maxIter us.length) o t0 scratch x0 us
    (r.2 = .ok true ∨ r.2 = .ok false) ∧
    (r.2 = .ok false ∨ 7 < r.1.trace.length → ∀ d, IsTrajectory p.callbacks t0 dt us.length x0 d →
      r.1.control.costs.sum ≤ d.costs.sum ∧ (d.costs.sum = r.1.control.costs.sum → d = r.1.control)) := by
  have h := C64_regularised (L := L) (p := p) (lim := lim) (dt := dt) (t0 := t0) (o := o) (x0 := x0) (us := us) (scratch := scratch)
    (cfg := defaultConfig (1 :: as) maxIter us.length) hL hp rfl rfl (by norm_num [defaultConfig]) (by norm_num [defaultConfig])
    (by norm_num [defaultConfig]) (by norm_num [defaultConfig]) rfl (by norm_num [defaultConfig]) (by norm_num [defaultConfig])
    (by norm_num [defaultConfig]) (by norm_num [defaultConfig]) (default_reg _ _ _) (by simpa [defaultConfig] using hm) rfl hd
  obtain ⟨⟨b, hb⟩, h2⟩ := h
  refine ⟨?_, h2⟩
  cases b
  · exact .inr hb
  · exact .inl hb

/-- **C65** DDP with the default configuration on the bipedal example, with the default or any other non-negative weights
(positive for the ZMP), for every reference, dynamics, time, state and warm start of the right length. -/
theorem C65_bipedal (p : Bipedal ℝ) {scratch : Scratch 2 (fun i => (fun _ : ℝ => 1) (timeAt t0 dt i)) ℝ}
    (hL : L.Exact) (h1 : 0 ≤ p.runningVel) (h2 : 0 < p.runningZmp) (h3 : 0 ≤ p.terminalPos) (h4 : 0 ≤ p.terminalVel)
    (hm : 7 ≤ maxIter) (hd : ∀ q ∈ us, q.1 = 1) :
    let r := solve L (p.ddp dt) none dt (defaultConfig (1 :: as) maxIter us.length) o t0 scratch x0 us
    (r.2 = .ok true ∨ r.2 = .ok false) ∧
    (r.2 = .ok false ∨ 7 < r.1.trace.length → ∀ d, IsTrajectory (p.ddp dt) t0 dt us.length x0 d →
      r.1.control.costs.sum ≤ d.costs.sum ∧ (d.costs.sum = r.1.control.costs.sum → d = r.1.control)) := by
  rw [p.ddp_eq dt]
  exact C64_default hL (Bipedal.convex dt h1 h2 h3 h4) hm fun i hi => hd _ (List.getElem_mem hi)

/-- **C65** The same for the vertical motion example, whose input dimension varies with time. -/
theorem C65_vertical (p : Vertical ℝ) {scratch : Scratch 2 (fun i => Vertical.inputDim (timeAt t0 dt i)) ℝ}
    (hL : L.Exact) (hs : p.smooth = false) (h1 : ∀ i, 0 ≤ p.runningX i) (h2 : 0 < p.runningU) (h3 : ∀ i, 0 ≤ p.terminalX i)
    (hm : 7 ≤ maxIter) (hd : ∀ i (h : i < us.length), (us[i]).1 = Vertical.inputDim (t0 + lit (i : ℚ) * dt)) :
    let r := solve L (p.ddp dt) none dt (defaultConfig (1 :: as) maxIter us.length) o t0 scratch x0 us
    (r.2 = .ok true ∨ r.2 = .ok false) ∧
    (r.2 = .ok false ∨ 7 < r.1.trace.length → ∀ d, IsTrajectory (p.ddp dt) t0 dt us.length x0 d →
      r.1.control.costs.sum ≤ d.costs.sum ∧ (d.costs.sum = r.1.control.costs.sum → d = r.1.control)) := by
  rw [p.ddp_eq dt hs]
  exact C64_default hL (Vertical.convex dt h1 h2 h3) hm hd

/-- **C65** With zero initial regularisation (and otherwise the default configuration), DDP finds the optimum of the bipedal
example in one step (or leaves the given inputs when their relative feedforward norm is already below the threshold). -/
theorem C65_bipedal_exact (p : Bipedal ℝ) {scratch : Scratch 2 (fun i => (fun _ : ℝ => 1) (timeAt t0 dt i)) ℝ}
    (hL : L.Exact) (h1 : 0 ≤ p.runningVel) (h2 : 0 < p.runningZmp) (h3 : 0 ≤ p.terminalPos) (h4 : 0 ≤ p.terminalVel)
    (hm : 2 ≤ maxIter) (hd : ∀ q ∈ us, q.1 = 1) :
    let r := solve L (p.ddp dt) none dt { defaultConfig (1 :: as) maxIter us.length with initialLambda := 0 } o t0 scratch x0 us
    r.2 = .ok true ∧
    ((∀ d, IsTrajectory (p.ddp dt) t0 dt us.length x0 d →
      r.1.control.costs.sum ≤ d.costs.sum ∧ (d.costs.sum = r.1.control.costs.sum → d = r.1.control)) ∨
      (r.1.control.us = us ∧ ∃ e0 e1, r.1.trace = [e0, e1] ∧ e1.kRelNorm < 1 / 10 ^ 4)) := by
  rw [p.ddp_eq dt]
  have h := C18_solve (L := L) (p := p.lq dt) (lim := none) (dt := dt) (t0 := t0) (o := o) (x0 := x0) (us := us)
    (scratch := scratch) (cfg := { defaultConfig (1 :: as) maxIter us.length with initialLambda := 0 })
    hL (Bipedal.convex dt h1 h2 h3 h4) rfl rfl (by norm_num [defaultConfig]) (by norm_num [defaultConfig])
    (by norm_num [defaultConfig]) rfl (by norm_num [defaultConfig]) rfl hm rfl (fun i hi => hd _ (List.getElem_mem hi))
  refine ⟨h.1, h.2.imp id ?_⟩
  rintro ⟨h5, e0, e1, h6, h7⟩
  exact ⟨h5, e0, e1, h6, by simpa [defaultConfig] using h7⟩

/-- The shipped weights of both examples meet the hypotheses. -/
example (refZmp omega2 : ℝ → ℝ) : 0 ≤ (Bipedal.default refZmp omega2).runningVel ∧ 0 < (Bipedal.default refZmp omega2).runningZmp ∧
    0 ≤ (Bipedal.default refZmp omega2).terminalPos ∧ 0 ≤ (Bipedal.default refZmp omega2).terminalVel := by
  norm_num [Bipedal.default]

example (refPos : ℝ → ℝ) : (Vertical.default refPos).smooth = false ∧ (∀ i, 0 ≤ (Vertical.default refPos).runningX i) ∧
    0 < (Vertical.default refPos).runningU ∧ ∀ i, 0 ≤ (Vertical.default refPos).terminalX i := by
  refine ⟨rfl, fun i => ?_, by norm_num [Vertical.default], fun i => ?_⟩ <;> fin_cases i <;> norm_num [Vertical.default]

end Nmpc.Problems
