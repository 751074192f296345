import Verif.DDP.NewtonSmooth

/-!
# Problems with affine dynamics and smooth costs near a solution
-/

namespace Nmpc.DDP

set_option linter.unusedSectionVars false

open Matrix Finset

/-- Specification of a problem with affine dynamics, general costs, and the derivatives of the costs. -/
structure SmoothProblem (n : ℕ) (md : ℝ → ℕ) where
  A : ℝ → Mat n n ℝ
  B : (t : ℝ) → Mat n (md t) ℝ
  c : ℝ → Vec n ℝ
  l : (t : ℝ) → Vec n ℝ → Vec (md t) ℝ → ℝ
  φ : ℝ → Vec n ℝ → ℝ
  dl : (t : ℝ) → Vec n ℝ → Vec (md t) ℝ → LDeriv n (md t) ℝ
  dφ : ℝ → Vec n ℝ → VDeriv n ℝ

/-- `x' = A x + B u + c` with the given costs and derivatives. -/
noncomputable def SmoothProblem.callbacks {n : ℕ} {md : ℝ → ℕ} (p : SmoothProblem n md) : Callbacks n md where
  stateEq t x u := p.A t *ᵥ x + p.B t *ᵥ u + p.c t
  runningCost t x u := p.l t x u
  terminalCost t x := p.φ t x
  stateEqDeriv t _ _ _ := { Fx := p.A t, Fu := p.B t }
  stateEqDeriv2 t _ _ _ := { Fx := p.A t, Fu := p.B t }
  runningCostDeriv t x u _ := p.dl t x u
  terminalCostDeriv t x _ := p.dφ t x

/-- The derivatives of a terminal cost, seen as those of a cost without inputs. -/
def VDeriv.toL {n : ℕ} (V : VDeriv n ℝ) : LDeriv n 0 ℝ := { Lx := V.Vx, Lu := 0, Lxx := V.Vxx, Luu := 0, Lxu := 0 }

/-- The hypotheses of the local convergence theorem, for a solution with states `xs` and inputs `us`:
in the ball of radius `r` around the solution the costs are twice differentiable with the given derivatives, their second derivatives are
`M`-Lipschitz, the second derivative of the running cost is positive semidefinite and positive definite in the input, that of the terminal
cost is positive semidefinite, and the second derivative of the total cost along trajectories is at least `ρ`. -/
structure SmoothProblem.Regular {n : ℕ} {md : ℝ → ℕ} (p : SmoothProblem n md) (t0 dt : ℝ) (N : ℕ) (xs : ℕ → Vec n ℝ)
    (us : (i : ℕ) → Vec (md (timeAt t0 dt i)) ℝ) (r ρ M : ℝ) : Prop where
  run : ∀ i < N, TwiceSmooth (p.l (timeAt t0 dt i)) (p.dl (timeAt t0 dt i)) (xs i) (us i) r M
  term : TwiceSmooth (fun x (_ : Vec 0 ℝ) => p.φ (timeAt t0 dt N) x) (fun x _ => (p.dφ (timeAt t0 dt N) x).toL) (xs N) 0 r M
  convex : ∀ i < N, ∀ x u, sq2 (x - xs i) (u - us i) ≤ r ^ 2 → ∀ dx du,
    0 ≤ dx ⬝ᵥ (p.dl (timeAt t0 dt i) x u).Lxx *ᵥ dx + 2 * (dx ⬝ᵥ (p.dl (timeAt t0 dt i) x u).Lxu *ᵥ du) +
      du ⬝ᵥ (p.dl (timeAt t0 dt i) x u).Luu *ᵥ du
  input : ∀ i < N, ∀ x u, sq2 (x - xs i) (u - us i) ≤ r ^ 2 → (p.dl (timeAt t0 dt i) x u).Luu.PosDef
  termConvex : ∀ x, (x - xs N) ⬝ᵥ (x - xs N) ≤ r ^ 2 → (p.dφ (timeAt t0 dt N) x).Vxx.PosSemidef
  curv : ∀ (x : ℕ → Vec n ℝ) (u : (i : ℕ) → Vec (md (timeAt t0 dt i)) ℝ),
    (∀ i < N, sq2 (x i - xs i) (u i - us i) ≤ r ^ 2) → (x N - xs N) ⬝ᵥ (x N - xs N) ≤ r ^ 2 →
    ∀ (ex : ℕ → Vec n ℝ) (eu : (i : ℕ) → Vec (md (timeAt t0 dt i)) ℝ), ex 0 = 0 →
    (∀ i < N, ex (i + 1) = p.A (timeAt t0 dt i) *ᵥ ex i + p.B (timeAt t0 dt i) *ᵥ eu i) →
    ρ * (∑ i ∈ range N, (ex i ⬝ᵥ ex i + eu i ⬝ᵥ eu i) + ex N ⬝ᵥ ex N) ≤
      ∑ i ∈ range N, (ex i ⬝ᵥ (p.dl (timeAt t0 dt i) (x i) (u i)).Lxx *ᵥ ex i +
        2 * (ex i ⬝ᵥ (p.dl (timeAt t0 dt i) (x i) (u i)).Lxu *ᵥ eu i) +
        eu i ⬝ᵥ (p.dl (timeAt t0 dt i) (x i) (u i)).Luu *ᵥ eu i) +
      ex N ⬝ᵥ (p.dφ (timeAt t0 dt N) (x N)).Vxx *ᵥ ex N

section
variable {n : ℕ}

theorem toL_slope (V : VDeriv n ℝ) (dx ex : Vec n ℝ) (du eu : Vec 0 ℝ) : V.toL.slope dx du ex eu = V.slope dx ex := by
  simp [VDeriv.toL, LDeriv.slope, VDeriv.slope]

theorem toL_val (V : VDeriv n ℝ) (dx : Vec n ℝ) (du : Vec 0 ℝ) : V.toL.val dx du = V.val dx := by
  simp [VDeriv.toL, LDeriv.val, VDeriv.val]

theorem sq2_zero_right (a : Vec n ℝ) (b : Vec 0 ℝ) : sq2 a b = a ⬝ᵥ a := by simp [sq2]

end

variable {n : ℕ} {md : ℝ → ℕ} {p : SmoothProblem n md} {cfg : Config ℝ}
  {lim : Option ((t : ℝ) → Vec (md t) ℝ × Vec (md t) ℝ)} {dt t0 : ℝ} {N : ℕ} {x0 : Vec n ℝ}
  {cs c c' : Ctrl n (fun i => md (timeAt t0 dt i)) ℝ} {r ρ M : ℝ}

theorem ball_stage (h : √(devSq N (devOf cs c)) ≤ r) {j : ℕ} (hj : j < N) :
    sq2 (c.x j - cs.x j) (c.u j - cs.u j) ≤ r ^ 2 := by
  have h1 := devSq_stage (N := N) (devOf cs c) hj
  have h2 : devSq N (devOf cs c) ≤ r ^ 2 := (Real.sqrt_le_left ((Real.sqrt_nonneg _).trans h)).1 h
  exact h1.trans h2

theorem ball_term (h : √(devSq N (devOf cs c)) ≤ r) : (c.x N - cs.x N) ⬝ᵥ (c.x N - cs.x N) ≤ r ^ 2 := by
  have h1 := devSq_term (N := N) (devOf cs c)
  have h2 : devSq N (devOf cs c) ≤ r ^ 2 := (Real.sqrt_le_left ((Real.sqrt_nonneg _).trans h)).1 h
  exact h1.trans h2

theorem ball_term' (h : √(devSq N (devOf cs c)) ≤ r) : sq2 (c.x N - cs.x N) ((0 : Vec 0 ℝ) - 0) ≤ r ^ 2 := by
  rw [sq2_zero_right]; exact ball_term h

theorem smooth_F (c : Ctrl n (fun i => md (timeAt t0 dt i)) ℝ) (b : Derivs n (fun i => md (timeAt t0 dt i)) ℝ) {i : ℕ} (hi : i < N) :
    ((calcDerivs N cfg (stagesOf p.callbacks lim t0 dt N) c b).F i).Fx = p.A (timeAt t0 dt i) ∧
    ((calcDerivs N cfg (stagesOf p.callbacks lim t0 dt N) c b).F i).Fu = p.B (timeAt t0 dt i) := by
  simp only [calcDerivs, if_pos hi, stagesOf, SmoothProblem.callbacks, ite_self, and_self]

theorem smooth_L (c : Ctrl n (fun i => md (timeAt t0 dt i)) ℝ) (b : Derivs n (fun i => md (timeAt t0 dt i)) ℝ) {i : ℕ} (hi : i < N) :
    (calcDerivs N cfg (stagesOf p.callbacks lim t0 dt N) c b).L i = p.dl (timeAt t0 dt i) (c.x i) (c.u i) := by
  simp only [calcDerivs, if_pos hi]; rfl

theorem smooth_V (c : Ctrl n (fun i => md (timeAt t0 dt i)) ℝ) (b : Derivs n (fun i => md (timeAt t0 dt i)) ℝ) :
    (calcDerivs N cfg (stagesOf p.callbacks lim t0 dt N) c b).V = p.dφ (timeAt t0 dt N) (c.x N) := rfl

theorem smooth_isVar (c : Ctrl n (fun i => md (timeAt t0 dt i)) ℝ) (b : Derivs n (fun i => md (timeAt t0 dt i)) ℝ)
    {e : Dev n (fun i => md (timeAt t0 dt i))} :
    IsVar N (calcDerivs N cfg (stagesOf p.callbacks lim t0 dt N) c b) e ↔
      e.x 0 = 0 ∧ ∀ i < N, e.x (i + 1) = p.A (timeAt t0 dt i) *ᵥ e.x i + p.B (timeAt t0 dt i) *ᵥ e.u i := by
  constructor
  · intro h
    refine ⟨h.start, fun i hi => ?_⟩
    have := h.step i hi
    rwa [(smooth_F c b hi).1, (smooth_F c b hi).2] at this
  · intro h
    refine ⟨h.1, fun i hi => ?_⟩
    rw [(smooth_F c b hi).1, (smooth_F c b hi).2]
    exact h.2 i hi

/-- First-order optimality of a solution that minimises the cost in the ball. -/
theorem smooth_stationary (hp : p.Regular t0 dt N cs.x cs.u r ρ M) (hr : 0 < r)
    (hcs : Consistent N (stagesOf p.callbacks lim t0 dt N) x0 cs)
    (hmin : ∀ c, Consistent N (stagesOf p.callbacks lim t0 dt N) x0 c → √(devSq N (devOf cs c)) ≤ r → totalCost N cs ≤ totalCost N c)
    {e : Dev n (fun i => md (timeAt t0 dt i))} (h0 : e.x 0 = 0)
    (he : ∀ i < N, e.x (i + 1) = p.A (timeAt t0 dt i) *ᵥ e.x i + p.B (timeAt t0 dt i) *ᵥ e.u i) :
    ∑ j ∈ range N, (p.dl (timeAt t0 dt j) (cs.x j) (cs.u j)).slope 0 0 (e.x j) (e.u j) +
      (p.dφ (timeAt t0 dt N) (cs.x N)).slope 0 (e.x N) = 0 := by
  let cc : ℝ → Ctrl n (fun i => md (timeAt t0 dt i)) ℝ := fun s =>
    { x := fun j => cs.x j + s • e.x j, u := fun j => cs.u j + s • e.u j
      cost := fun j => if j < N then p.l (timeAt t0 dt j) (cs.x j + s • e.x j) (cs.u j + s • e.u j)
        else p.φ (timeAt t0 dt j) (cs.x j + s • e.x j) }
  have hcons : ∀ s, Consistent N (stagesOf p.callbacks lim t0 dt N) x0 (cc s) := by
    intro s
    refine ⟨by simp [cc, h0, hcs.start], ?_, ?_, ?_⟩
    · intro i hi
      show cs.x (i + 1) + s • e.x (i + 1) = p.A _ *ᵥ (cs.x i + s • e.x i) + p.B _ *ᵥ (cs.u i + s • e.u i) + p.c _
      have h1 : cs.x (i + 1) = p.A _ *ᵥ cs.x i + p.B _ *ᵥ cs.u i + p.c _ := hcs.step i hi
      rw [h1, he i hi, mulVec_add, mulVec_add, mulVec_smul, mulVec_smul, smul_add]
      abel
    · intro i hi
      simp [cc, hi]; rfl
    · simp [cc]; rfl
  have hcost : ∀ s, totalCost N (cc s) = ∑ j ∈ range N, p.l (timeAt t0 dt j) (cs.x j + s • e.x j) (cs.u j + s • e.u j) +
      p.φ (timeAt t0 dt N) (cs.x N + s • e.x N) := by
    intro s
    rw [totalCost_real]
    congr 1
    · exact sum_congr rfl fun j hj => if_pos (mem_range.1 hj)
    · exact if_neg (lt_irrefl _)
  have hdist : ∀ s, devSq N (devOf cs (cc s)) = s ^ 2 * devSq N e := by
    intro s
    simp only [devOf, cc, add_sub_cancel_left, devSq, smul_dotProduct, dotProduct_smul, smul_eq_mul]
    rw [mul_add, mul_sum]
    congr 1
    · exact sum_congr rfl fun j _ => by ring
    · ring
  have h00 : totalCost N (cc 0) = totalCost N cs := by
    rw [hcost, totalCost_real]
    simp only [zero_smul, add_zero]
    congr 1
    · exact sum_congr rfl fun j hj => (hcs.run j (mem_range.1 hj)).symm
    · exact hcs.term.symm
  have hself : √(devSq N (devOf cs cs)) ≤ r := by
    have : devSq N (devOf cs cs) = 0 := by simp [devSq, devOf]
    rw [this, Real.sqrt_zero]; exact hr.le
  have hderiv : HasDerivAt (fun s => totalCost N (cc s))
      (∑ j ∈ range N, (p.dl (timeAt t0 dt j) (cs.x j) (cs.u j)).slope 0 0 (e.x j) (e.u j) +
        (p.dφ (timeAt t0 dt N) (cs.x N)).slope 0 (e.x N)) 0 := by
    rw [show (fun s => totalCost N (cc s)) = _ from funext hcost]
    refine HasDerivAt.add (HasDerivAt.fun_sum fun j hj => ?_) ?_
    · have h1 := (hp.run j (mem_range.1 hj)).grad _ _ (ball_stage hself (mem_range.1 hj))
      have h2 : IsGrad2 (p.l (timeAt t0 dt j)) (cs.x j + (0 : ℝ) • e.x j) (cs.u j + (0 : ℝ) • e.u j)
          (p.dl (timeAt t0 dt j) (cs.x j) (cs.u j)).Lx (p.dl (timeAt t0 dt j) (cs.x j) (cs.u j)).Lu := by simpa using h1
      exact h2.line.congr_deriv (by simp [LDeriv.slope])
    · have h1 := hp.term.grad _ _ (ball_term' hself)
      have h2 : IsGrad2 (fun x (_ : Vec 0 ℝ) => p.φ (timeAt t0 dt N) x) (cs.x N + (0 : ℝ) • e.x N) ((0 : Vec 0 ℝ) + (0 : ℝ) • (0 : Vec 0 ℝ))
          (p.dφ (timeAt t0 dt N) (cs.x N)).Vx 0 := by
        have h3 : (cs.x N + (0 : ℝ) • e.x N) = cs.x N := by simp
        rw [h3]
        have h4 : ((0 : Vec 0 ℝ) + (0 : ℝ) • (0 : Vec 0 ℝ)) = 0 := by simp
        rw [h4]
        exact h1
      exact h2.line.congr_deriv (by simp [VDeriv.slope])
  have hloc : IsLocalMin (fun s => totalCost N (cc s)) 0 := by
    have hcont : Filter.Tendsto (fun s : ℝ => |s| * √(devSq N e)) (nhds 0) (nhds (|0| * √(devSq N e))) :=
      (continuous_abs.mul continuous_const).tendsto 0
    rw [abs_zero, zero_mul] at hcont
    filter_upwards [hcont.eventually (gt_mem_nhds hr)] with s hs
    rw [h00]
    refine hmin _ (hcons s) ?_
    rw [hdist, Real.sqrt_mul (sq_nonneg _), Real.sqrt_sq_eq_abs]
    exact hs.le
  exact hloc.hasDerivAt_eq_zero hderiv

/-- The hypotheses about the problem give what the solver needs. -/
theorem smooth_region (hp : p.Regular t0 dt N cs.x cs.u r ρ M) (hr : 0 < r) (hM : 0 ≤ M)
    (hcs : Consistent N (stagesOf p.callbacks lim t0 dt N) x0 cs)
    (hmin : ∀ c, Consistent N (stagesOf p.callbacks lim t0 dt N) x0 c → √(devSq N (devOf cs c)) ≤ r → totalCost N cs ≤ totalCost N c) :
    NewtonRegion N cfg (stagesOf p.callbacks lim t0 dt N) x0 cs r ρ M where
  sol := hcs
  aff c b _ h :=
    { dyn := by
        intro i hi dx du
        rw [(smooth_F c b hi).1, (smooth_F c b hi).2]
        simp only [stagesOf, SmoothProblem.callbacks, mulVec_add]
        abel
      symmX := fun i hi => by rw [smooth_L c b hi]; exact ((hp.run i hi).symm _ _ (ball_stage h hi)).1
      symmU := fun i hi => by rw [smooth_L c b hi]; exact ((hp.run i hi).symm _ _ (ball_stage h hi)).2
      symmV := (hp.term.symm _ _ (ball_term' h)).1 }
  convex c b _ h :=
    { stage := fun i hi dx du => by rw [smooth_L c b hi]; exact hp.convex i hi _ _ (ball_stage h hi) dx du
      input := fun i hi => by rw [smooth_L c b hi]; exact hp.input i hi _ _ (ball_stage h hi)
      term := hp.termConvex _ (ball_term h) }
  curv c b _ h e he := by
    obtain ⟨h0, h1⟩ := (smooth_isVar c b).1 he
    have := hp.curv c.x c.u (fun i hi => ball_stage h hi) (ball_term h) e.x e.u h0 h1
    unfold mdlQuad
    rw [sum_congr rfl fun i hi => by rw [smooth_L c b (mem_range.1 hi)]]
    exact this
  grad c b _ h e he := by
    obtain ⟨h0, h1⟩ := (smooth_isVar c b).1 he
    have hst := smooth_stationary hp hr hcs hmin h0 h1
    have hself : √(devSq N (devOf cs cs)) ≤ r := by
      have : devSq N (devOf cs cs) = 0 := by simp [devSq, devOf]
      rw [this, Real.sqrt_zero]; exact hr.le
    unfold mdlSlope
    rw [sum_congr rfl fun i hi => by rw [smooth_L c b (mem_range.1 hi)], smooth_V]
    have h2 : ∀ i ∈ range N, |(p.dl (timeAt t0 dt i) (cs.x i) (cs.u i)).slope 0 0 (e.x i) (e.u i) -
        (p.dl (timeAt t0 dt i) (c.x i) (c.u i)).slope ((devOf c cs).x i) ((devOf c cs).u i) (e.x i) (e.u i)| ≤
        M / 2 * √(devSq N e) * ((devOf c cs).x i ⬝ᵥ (devOf c cs).x i + (devOf c cs).u i ⬝ᵥ (devOf c cs).u i) := by
      intro i hi
      have hi := mem_range.1 hi
      refine ((hp.run i hi).taylor_grad (ball_stage h hi) (ball_stage hself hi) (e.x i) (e.u i)).trans ?_
      have h3 : √(sq2 (e.x i) (e.u i)) ≤ √(devSq N e) := Real.sqrt_le_sqrt (devSq_stage e hi)
      have h4 : (0 : ℝ) ≤ M / 2 * sq2 (cs.x i - c.x i) (cs.u i - c.u i) := mul_nonneg (by linarith) (sq2_nonneg _ _)
      refine (mul_le_mul_of_nonneg_left h3 h4).trans (le_of_eq ?_)
      simp only [sq2, devOf]
      ring
    have h5 : |(p.dφ (timeAt t0 dt N) (cs.x N)).slope 0 (e.x N) -
        (p.dφ (timeAt t0 dt N) (c.x N)).slope ((devOf c cs).x N) (e.x N)| ≤
        M / 2 * √(devSq N e) * ((devOf c cs).x N ⬝ᵥ (devOf c cs).x N) := by
      have h6 := hp.term.taylor_grad (ball_term' h) (ball_term' hself) (e.x N) (0 : Vec 0 ℝ)
      simp only [toL_slope, sq2_zero_right] at h6
      refine h6.trans ?_
      have h3 : √(e.x N ⬝ᵥ e.x N) ≤ √(devSq N e) := Real.sqrt_le_sqrt (devSq_term e)
      have h4 : (0 : ℝ) ≤ M / 2 * ((cs.x N - c.x N) ⬝ᵥ (cs.x N - c.x N)) := mul_nonneg (by linarith) (dot_self_nonneg' _)
      refine (mul_le_mul_of_nonneg_left h3 h4).trans (le_of_eq ?_)
      simp only [devOf]
      ring
    have h7 := (abs_sum_le_sum_abs _ _).trans (sum_le_sum h2)
    rw [sum_sub_distrib] at h7
    rw [devSq_comm cs c, ← abs_neg]
    have h8 := abs_add_le (∑ i ∈ range N, (p.dl (timeAt t0 dt i) (cs.x i) (cs.u i)).slope 0 0 (e.x i) (e.u i) -
      ∑ i ∈ range N, (p.dl (timeAt t0 dt i) (c.x i) (c.u i)).slope ((devOf c cs).x i) ((devOf c cs).u i) (e.x i) (e.u i))
      ((p.dφ (timeAt t0 dt N) (cs.x N)).slope 0 (e.x N) -
        (p.dφ (timeAt t0 dt N) (c.x N)).slope ((devOf c cs).x N) (e.x N))
    have h9 : ∀ a b : ℝ, -(a + b) = 0 - a - b := fun a b => by ring
    rw [h9, ← hst]
    refine le_trans (le_of_eq ?_) (h8.trans ((add_le_add h7 h5).trans (le_of_eq ?_)))
    · congr 1; ring
    · rw [← mul_sum, ← mul_add]
      unfold devSq
      ring
  cost c b c' hc h hc' h' := by
    rw [totalCost_real, totalCost_real]
    unfold mdl
    have hLs : ∑ i ∈ range N, ((calcDerivs N cfg (stagesOf p.callbacks lim t0 dt N) c b).L i).val ((devOf c c').x i) ((devOf c c').u i) =
        ∑ i ∈ range N, (p.dl (timeAt t0 dt i) (c.x i) (c.u i)).val ((devOf c c').x i) ((devOf c c').u i) :=
      sum_congr rfl fun i hi => by rw [smooth_L c b (mem_range.1 hi)]
    rw [hLs, smooth_V, sum_congr rfl fun i hi => hc.run i (mem_range.1 hi), hc.term, hc'.term,
      show ∑ i ∈ range N, c'.cost i = _ from sum_congr rfl fun i hi => hc'.run i (mem_range.1 hi)]
    set w := √(devSq N (devOf c c')) with hw
    have hw0 : 0 ≤ w := Real.sqrt_nonneg _
    have hcube : ∀ a : ℝ, 0 ≤ a → a ≤ devSq N (devOf c c') → M / 6 * √a ^ 3 ≤ M / 6 * w * a := by
      intro a ha hle
      have h1 : √a ≤ w := Real.sqrt_le_sqrt hle
      have h2 : √a ^ 3 = √a * a := by rw [pow_succ, Real.sq_sqrt ha, mul_comm]
      rw [h2]
      have h3 : √a * a ≤ w * a := mul_le_mul_of_nonneg_right h1 ha
      nlinarith
    have h2 : ∀ i ∈ range N, |(stagesOf p.callbacks lim t0 dt N).l i (c'.x i) (c'.u i) -
        (stagesOf p.callbacks lim t0 dt N).l i (c.x i) (c.u i) -
        (p.dl (timeAt t0 dt i) (c.x i) (c.u i)).val ((devOf c c').x i) ((devOf c c').u i)| ≤
        M / 6 * w * ((devOf c c').x i ⬝ᵥ (devOf c c').x i + (devOf c c').u i ⬝ᵥ (devOf c c').u i) := by
      intro i hi
      have hi := mem_range.1 hi
      refine ((hp.run i hi).taylor_cost (ball_stage h hi) (ball_stage h' hi)).trans ?_
      exact hcube _ (sq2_nonneg _ _) (devSq_stage (devOf c c') hi)
    have h5 : |(stagesOf p.callbacks lim t0 dt N).φ (c'.x N) - (stagesOf p.callbacks lim t0 dt N).φ (c.x N) -
        (p.dφ (timeAt t0 dt N) (c.x N)).val ((devOf c c').x N)| ≤ M / 6 * w * ((devOf c c').x N ⬝ᵥ (devOf c c').x N) := by
      have h6 := hp.term.taylor_cost (ball_term' h) (ball_term' h')
      simp only [toL_val, sq2_zero_right] at h6
      exact h6.trans (hcube _ (dot_self_nonneg' _) (devSq_term (devOf c c')))
    have h7 := (abs_sum_le_sum_abs _ _).trans (sum_le_sum h2)
    rw [sum_sub_distrib, sum_sub_distrib] at h7
    have h8 := (abs_add_le _ _).trans (add_le_add h7 h5)
    refine le_trans (le_of_eq ?_) (h8.trans (le_of_eq ?_))
    · congr 1; ring
    · rw [← mul_sum, ← mul_add, show w ^ 3 = w * w ^ 2 by ring, hw, Real.sq_sqrt (devSq_nonneg _)]
      unfold devSq
      ring

end Nmpc.DDP
