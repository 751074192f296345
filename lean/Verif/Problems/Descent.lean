import Verif.Problems.Ddp
import Verif.DDP.NonlinearProps
import Verif.DDP.Examples

/-!
# C72, C73 for the nonlinear DDP examples (cart-pole and centroidal motion)
-/

set_option linter.unnecessarySeqFocus false

namespace Nmpc.Problems

open Matrix Finset DDP

theorem isJac2_of {a b c : ℕ} {f : Vec a ℝ → Vec b ℝ → Vec c ℝ} {x : Vec a ℝ} {u : Vec b ℝ} {A : Mat c a ℝ} {B : Mat c b ℝ}
    (hd : DifferentiableAt ℝ (fun p : Vec a ℝ × Vec b ℝ => f p.1 p.2) (x, u)) (hx : IsJac (fun y => f y u) x A)
    (hu : IsJac (fun w => f x w) u B) : IsJac2 f x u A B := by
  obtain ⟨D1, hD1, h1⟩ := hx
  obtain ⟨D2, hD2, h2⟩ := hu
  have hD := hd.hasFDerivAt
  refine ⟨_, hD, fun ξ v => ?_⟩
  have e1 := HasFDerivAt.comp (f := fun y => (y, u)) x hD (hasFDerivAt_prodMk_left x u)
  have e2 := HasFDerivAt.comp (f := fun w => (x, w)) u hD (hasFDerivAt_prodMk_right x u)
  rw [← h1, ← h2, hD1.unique e1, hD2.unique e2]
  have : ((ξ, v) : Vec a ℝ × Vec b ℝ) = (ξ, 0) + (0, v) := by simp
  rw [this, map_add]
  rfl

/-- True partial derivatives and joint differentiability give `FirstOrderAlong`. -/
theorem firstOrderAlong_of {n : ℕ} {md : ℝ → ℕ} {P : DDP.Callbacks n md} (h : ∀ t x u, DdpDerivs P t x u)
    (hf : ∀ t x u, DifferentiableAt ℝ (fun p : Vec n ℝ × Vec (md t) ℝ => P.stateEq t p.1 p.2) (x, u))
    (hl : ∀ t x u, DifferentiableAt ℝ (fun p : Vec n ℝ × Vec (md t) ℝ => P.runningCost t p.1 p.2) (x, u))
    (t0 dt : ℝ) (N : ℕ) (d : DDP.ControlData n ℝ) (u0 : ∀ t, Vec (md t) ℝ) : FirstOrderAlong P t0 dt N d where
  dyn _ _ x u _ _ b := isJac2_of (hf _ x u) ((h _ x u).fx b) ((h _ x u).fu b)
  run _ _ x u _ _ b := joint_of_partials (hl _ x u) ((h _ x u).lx b) ((h _ x u).lu b)
  term x _ b := (h _ x (u0 _)).vx b

theorem diag_mulVec_apply {n : ℕ} (w v : Vec n ℝ) : diag w *ᵥ v = fun i => w i * v i := by
  funext i
  simp [diag, mulVec, dotProduct]

theorem diag_quad {n : ℕ} (w v : Vec n ℝ) : v ⬝ᵥ diag w *ᵥ v = ∑ i, w i * (v i * v i) := by
  rw [diag_mulVec_apply]
  exact sum_congr rfl fun i _ => by ring

theorem diag_symm {n : ℕ} (w : Vec n ℝ) : (diag w).IsSymm := by
  ext i j
  simp only [diag, transpose_apply]
  by_cases h : i = j
  · subst h; simp
  · rw [if_neg (Ne.symm h), if_neg h]

theorem diag_posDef {n : ℕ} {w : Vec n ℝ} (h : ∀ i, 0 < w i) : (diag w : Mat n n ℝ).PosDef := by
  refine posDef_iff.2 ⟨diag_symm w, fun v hv => ?_⟩
  rw [diag_quad]
  obtain ⟨i, hi⟩ := Function.ne_iff.1 hv
  exact sum_pos' (fun j _ => mul_nonneg (h j).le (mul_self_nonneg _)) ⟨i, mem_univ i, mul_pos (h i) (mul_self_pos.2 hi)⟩

theorem diag_posSemidef {n : ℕ} {w : Vec n ℝ} (h : ∀ i, 0 ≤ w i) : (diag w : Mat n n ℝ).PosSemidef :=
  posSemidef_iff.2 ⟨diag_symm w, fun v => by rw [diag_quad]; exact sum_nonneg fun j _ => mul_nonneg (h j) (mul_self_nonneg _)⟩

theorem scale_ident {k : ℕ} (c : ℝ) : scaleM c (identM k) = diag fun _ : Fin k => c := by
  funext i j
  simp only [diag, scaleM, identM]
  split <;> simp

theorem zeroM_quad {n m : ℕ} (x : Vec n ℝ) (u : Vec m ℝ) : x ⬝ᵥ ((fun _ _ => 0 : Mat n m ℝ) *ᵥ u) = 0 := by
  simp [mulVec, dotProduct]

/-! ## Cart-pole -/

section CartPole

variable {p : CartPole ℝ} {refPos : ℝ → ℝ}

theorem cartPole_convexHess {sdt : ℝ} (hx : ∀ i, 0 ≤ p.runningX i) (hu : ∀ i, 0 < p.runningU i) (ht : ∀ i, 0 ≤ p.terminalX i) :
    (p.ddp refPos sdt).ConvexHess where
  stage t x u b dx du := by
    show 0 ≤ dx ⬝ᵥ diag p.runningX *ᵥ dx + 2 * (dx ⬝ᵥ ((fun _ _ => 0 : Mat 4 1 ℝ) *ᵥ du)) + du ⬝ᵥ diag p.runningU *ᵥ du
    rw [zeroM_quad, mul_zero, add_zero]
    exact add_nonneg ((posSemidef_iff.1 (diag_posSemidef hx)).2 _) ((posSemidef_iff.1 (diag_posDef hu).posSemidef).2 _)
  input t x u b := diag_posDef hu
  term t x b := diag_posSemidef ht

theorem cartPole_firstOrder {sdt : ℝ} (h1 : 0 < p.m1) (h2 : 0 ≤ p.m2) (hl : p.l ≠ 0) (t0 dt : ℝ) (N : ℕ) (d : DDP.ControlData 4 ℝ) :
    FirstOrderAlong (p.ddp refPos sdt) t0 dt N d := by
  have hden : ∀ a, p.denom a ≠ 0 := fun a => (cartPole_denom_pos p h1 h2 a).ne'
  refine firstOrderAlong_of (fun t x u => C55_ddp_cartpole p refPos sdt t x u hl (hden _)) (fun t x u => ?_) (fun t x u => ?_) t0 dt N d
    (fun _ _ => 0)
  · have hd' : p.m1 + p.m2 * (Real.sin (x 1) * Real.sin (x 1)) ≠ 0 := hden _
    have hld : p.l * (p.m1 + p.m2 * (Real.sin (x 1) * Real.sin (x 1))) ≠ 0 := mul_ne_zero hl hd'
    rw [differentiableAt_pi]
    intro i
    fin_cases i
    · change DifferentiableAt ℝ (fun q : Vec 4 ℝ × Vec 1 ℝ => q.1 0 + sdt * q.1 2) (x, u)
      fun_prop
    · change DifferentiableAt ℝ (fun q : Vec 4 ℝ × Vec 1 ℝ => q.1 1 + sdt * q.1 3) (x, u)
      fun_prop
    · change DifferentiableAt ℝ (fun q : Vec 4 ℝ × Vec 1 ℝ => q.1 2 + sdt * ((q.2 0 - p.m2 * p.l * (q.1 3 * q.1 3) * Real.sin (q.1 1)
        + p.m2 * grav * Real.sin (q.1 1) * Real.cos (q.1 1)) / (p.m1 + p.m2 * (Real.sin (q.1 1) * Real.sin (q.1 1))))) (x, u)
      fun_prop (disch := assumption)
    · change DifferentiableAt ℝ (fun q : Vec 4 ℝ × Vec 1 ℝ => q.1 3 + sdt * ((q.2 0 * Real.cos (q.1 1)
        - p.m2 * p.l * (q.1 3 * q.1 3) * Real.sin (q.1 1) * Real.cos (q.1 1) + grav * (p.m1 + p.m2) * Real.sin (q.1 1))
          / (p.l * (p.m1 + p.m2 * (Real.sin (q.1 1) * Real.sin (q.1 1)))))) (x, u)
      fun_prop (disch := assumption)
  · change DifferentiableAt ℝ (fun q : Vec 4 ℝ × Vec 1 ℝ => lit (1 / 2) * FOps.dot p.runningX (abs2 (q.1 - CartPole.ref refPos t)) +
      lit (1 / 2) * FOps.dot p.runningU (abs2 q.2)) (x, u)
    simp only [lit_real, dot_real, dotProduct, abs2, Pi.sub_apply]
    fun_prop

/-- **C72** for the cart-pole example with physically meaningful parameters, any state and any inputs: unless the inputs are stationary,
`solve` decreases the cost (or stops in the first iteration by the small-gradient test) as soon as the list of step sizes contains
a small enough one. -/
theorem C72_cartpole {sdt : ℝ} (h1 : 0 < p.m1) (h2 : 0 ≤ p.m2) (hl : p.l ≠ 0) (hx : ∀ i, 0 ≤ p.runningX i)
    (hu : ∀ i, 0 < p.runningU i) (ht : ∀ i, 0 ≤ p.terminalX i) {L : LLT ℝ} (hL : L.Exact) {cfg : DDP.Config ℝ}
    (hw : cfg.withConstraint = false) (hs : cfg.useSecond = false) (h0 : 0 ≤ cfg.initialLambda) (hr0 : 0 ≤ cfg.costUpdateRatioThre)
    (hr : cfg.costUpdateRatioThre < 1 / 2) (hmax : 1 ≤ cfg.maxIter) {us : List (Σ k : ℕ, Vec k ℝ)} (hN : (us.length : ℤ) = cfg.horizon)
    {t0 dt : ℝ} (hd : DDP.DimsOk (fun _ : ℝ => 1) t0 dt us) {x0 : Vec 4 ℝ} {d : DDP.ControlData 4 ℝ}
    (htraj : DDP.IsTrajectory (p.ddp refPos sdt) t0 dt us.length x0 d) (hus : d.us = us)
    (hst : ¬ DDP.Stationary (p.ddp refPos sdt) t0 dt us.length d)
    {lim : Option ((t : ℝ) → Vec 1 ℝ × Vec 1 ℝ)} {o : DDP.Obj 4 ℝ} {scratch : DDP.Scratch 4 (fun _ => 1) ℝ} :
    ∃ a0, 0 < a0 ∧ ∀ as : List ℝ, (∀ a ∈ as, 0 < a ∧ a < 2) → (∃ a ∈ as, a ≤ a0) →
      ∀ r, r = DDP.solve L (p.ddp refPos sdt) lim dt { cfg with alphaList := as } o t0 scratch x0 us →
      (r.2 = .ok true ∧ r.1.control = d ∧ r.1.trace.length = 2 ∧ (∃ e, r.1.trace[1]? = some e ∧ e.kRelNorm < cfg.kRelNormThre) ∧
          cfg.initialLambda < cfg.lambdaThre) ∨
        r.1.control.costs.sum < d.costs.sum :=
  C72_descent hL hw hs (cartPole_convexHess hx hu ht) h0 hr0 hr hmax hN hd htraj hus (cartPole_firstOrder h1 h2 hl t0 dt _ d) hst

/-- One step of the default cart-pole moving with velocity 1, without force. -/
noncomputable def coasting : DDP.ControlData 4 ℝ where
  xs := [![0, 0, 1, 0], (CartPole.default : CartPole ℝ).stateEq (1 / 10) ![0, 0, 1, 0] ![0]]
  us := [⟨1, ![0]⟩]
  costs := [(CartPole.default : CartPole ℝ).runningCost (fun _ => 0) (DDP.timeAt 0 (1 / 10) 0) ![0, 0, 1, 0] ![0],
    (CartPole.default : CartPole ℝ).terminalCost (fun _ => 0) (DDP.timeAt 0 (1 / 10) 1)
      ((CartPole.default : CartPole ℝ).stateEq (1 / 10) ![0, 0, 1, 0] ![0])]

theorem coasting_trajectory :
    DDP.IsTrajectory ((CartPole.default : CartPole ℝ).ddp (fun _ => 0) (1 / 10)) 0 (1 / 10) 1 ![0, 0, 1, 0] coasting where
  lenX := rfl
  lenU := rfl
  lenC := rfl
  start := rfl
  step j hj := by
    obtain rfl : j = 0 := by omega
    exact ⟨_, _, rfl, rfl, rfl, rfl⟩
  term := ⟨_, rfl, rfl⟩

theorem coasting_not_stationary :
    ¬ DDP.Stationary ((CartPole.default : CartPole ℝ).ddp (fun _ => 0) (1 / 10)) 0 (1 / 10) 1 coasting := by
  rintro ⟨p, h1, h2⟩
  have e1 := h1 _ rfl ⟨0, 0⟩
  have e2 := congrFun (h2 0 one_pos _ _ rfl rfl ⟨0, 0⟩ ⟨0, 0, 0, 0, 0⟩).2 0
  rw [zero_add, ← e1] at e2
  simp [CartPole.ddp, CartPole.default, CartPole.runningCostDeriv, CartPole.terminalCostDeriv, CartPole.stateEq, CartPole.stateEqU,
    CartPole.ref, cwise, scaleM, CartPole.denom, mulVec, dotProduct, Fin.sum_univ_four] at e2

/-- C72 for the default parameters at a trajectory that is not stationary. -/
example (o : DDP.Obj 4 ℝ) (scratch : DDP.Scratch 4 (fun _ => 1) ℝ) : ∃ a0 : ℝ, 0 < a0 ∧ ∀ as : List ℝ, (∀ a ∈ as, 0 < a ∧ a < 2) →
    (∃ a ∈ as, a ≤ a0) → ∀ r, r = DDP.solve exactLLT ((CartPole.default : CartPole ℝ).ddp (fun _ => 0) (1 / 10)) none (1 / 10)
      { DDP.defaultConfig [1] 500 1 with alphaList := as } o 0 scratch ![0, 0, 1, 0] [⟨1, ![0]⟩] →
    r.1.control.costs.sum < coasting.costs.sum := by
  obtain ⟨a0, h0, h⟩ := C72_cartpole (p := CartPole.default) (refPos := fun _ => 0) (sdt := 1 / 10) (L := exactLLT)
    (cfg := DDP.defaultConfig [1] 500 1) (t0 := 0) (dt := 1 / 10) (us := [⟨1, ![0]⟩]) (x0 := ![0, 0, 1, 0]) (d := coasting)
    (lim := none) (o := o) (scratch := scratch)
    (by norm_num [CartPole.default]) (by norm_num [CartPole.default]) (by norm_num [CartPole.default])
    (by intro i; fin_cases i <;> norm_num [CartPole.default]) (by intro i; fin_cases i; norm_num [CartPole.default])
    (by intro i; fin_cases i <;> norm_num [CartPole.default]) exactLLT_exact rfl rfl (by norm_num [DDP.defaultConfig])
    (by norm_num [DDP.defaultConfig]) (by norm_num [DDP.defaultConfig]) (by norm_num [DDP.defaultConfig])
    (by norm_num [DDP.defaultConfig]) (by intro i hi; simp at hi; subst hi; rfl) coasting_trajectory rfl coasting_not_stationary
  refine ⟨a0, h0, fun as h1 h2 r hr => ?_⟩
  rcases h as h1 h2 r hr with ⟨-, -, -, -, h⟩ | h
  · norm_num [DDP.defaultConfig] at h
  · exact h

/-- C73 at the same trajectory: some direction of the inputs changes the cost to first order. -/
example : ¬ ∀ v D, InputVariation ((CartPole.default : CartPole ℝ).ddp (fun _ => 0) (1 / 10)) 0 (1 / 10) 1 ![0, 0, 1, 0] coasting v D →
    HasDerivAt (fun s => (D s).costs.sum) 0 0 := by
  rw [← C73_stationary_iff coasting_trajectory (cartPole_firstOrder (by norm_num [CartPole.default]) (by norm_num [CartPole.default])
    (by norm_num [CartPole.default]) _ _ _ _)]
  exact coasting_not_stationary

end CartPole

/-! ## Centroidal motion -/

section Centroidal

variable {p : Centroidal ℝ}

theorem centroidal_convexHess {sdt : ℝ} (hx : ∀ i, 0 ≤ p.runningX i) (hu : 0 < p.runningU) (ht : ∀ i, 0 ≤ p.terminalX i) :
    (p.ddp sdt).ConvexHess where
  stage t x u b dx du := by
    show 0 ≤ dx ⬝ᵥ diag p.runningX *ᵥ dx + 2 * (dx ⬝ᵥ ((fun _ _ => 0 : Mat 9 (p.k t) ℝ) *ᵥ du)) +
      du ⬝ᵥ scaleM p.runningU (identM _) *ᵥ du
    rw [zeroM_quad, mul_zero, add_zero, scale_ident]
    exact add_nonneg ((posSemidef_iff.1 (diag_posSemidef hx)).2 _) ((posSemidef_iff.1 (diag_posDef fun _ => hu).posSemidef).2 _)
  input t x u b := by
    show (scaleM p.runningU (identM _) : Mat _ _ ℝ).PosDef
    rw [scale_ident]
    exact diag_posDef fun _ => hu
  term t x b := diag_posSemidef ht

theorem centroidal_firstOrder {sdt : ℝ} (t0 dt : ℝ) (N : ℕ) (d : DDP.ControlData 9 ℝ) : FirstOrderAlong (p.ddp sdt) t0 dt N d := by
  refine firstOrderAlong_of (fun t x u => C55_centroidal p sdt t x u) (fun t x u => ?_) (fun t x u => ?_) t0 dt N d (fun _ _ => 0)
  · rw [differentiableAt_pi]
    intro i
    simp only [Centroidal.ddp, Centroidal.stateEq, moment_real]
    fin_cases i <;>
      simp [stack3, seg0, seg3, cross, Finset.sum_apply, mulVec, dotProduct] <;> fun_prop
  · simp only [Centroidal.ddp, centroidal_diff, lit_real, dot_real, dotProduct, abs2, Pi.sub_apply, sqNorm_real]
    fun_prop

/-- **C72** for the centroidal-motion example, for any stance sequence (time-varying input dimension). -/
theorem C72_centroidal {sdt : ℝ} (hx : ∀ i, 0 ≤ p.runningX i) (hu : 0 < p.runningU) (ht : ∀ i, 0 ≤ p.terminalX i) {L : LLT ℝ}
    (hL : L.Exact) {cfg : DDP.Config ℝ} (hw : cfg.withConstraint = false) (hs : cfg.useSecond = false) (h0 : 0 ≤ cfg.initialLambda)
    (hr0 : 0 ≤ cfg.costUpdateRatioThre) (hr : cfg.costUpdateRatioThre < 1 / 2) (hmax : 1 ≤ cfg.maxIter)
    {us : List (Σ k : ℕ, Vec k ℝ)} (hN : (us.length : ℤ) = cfg.horizon) {t0 dt : ℝ} (hd : DDP.DimsOk p.k t0 dt us) {x0 : Vec 9 ℝ}
    {d : DDP.ControlData 9 ℝ} (htraj : DDP.IsTrajectory (p.ddp sdt) t0 dt us.length x0 d) (hus : d.us = us)
    (hst : ¬ DDP.Stationary (p.ddp sdt) t0 dt us.length d) {lim : Option ((t : ℝ) → Vec (p.k t) ℝ × Vec (p.k t) ℝ)} {o : DDP.Obj 9 ℝ}
    {scratch : DDP.Scratch 9 (fun i => p.k (DDP.timeAt t0 dt i)) ℝ} :
    ∃ a0, 0 < a0 ∧ ∀ as : List ℝ, (∀ a ∈ as, 0 < a ∧ a < 2) → (∃ a ∈ as, a ≤ a0) →
      ∀ r, r = DDP.solve L (p.ddp sdt) lim dt { cfg with alphaList := as } o t0 scratch x0 us →
      (r.2 = .ok true ∧ r.1.control = d ∧ r.1.trace.length = 2 ∧ (∃ e, r.1.trace[1]? = some e ∧ e.kRelNorm < cfg.kRelNormThre) ∧
          cfg.initialLambda < cfg.lambdaThre) ∨
        r.1.control.costs.sum < d.costs.sum :=
  C72_descent hL hw hs (centroidal_convexHess hx hu ht) h0 hr0 hr hmax hN hd htraj hus (centroidal_firstOrder t0 dt _ d) hst

end Centroidal

end Nmpc.Problems
