import Verif.DDP.NewtonProps
import Verif.DDP.Examples
import Verif.DDP.CertificateExample

/-!
# C113: a problem with a quartic terminal cost
-/

namespace Nmpc.DDP

open Matrix Finset

section Scalar
variable {k : ℕ} {g : ℝ → ℝ} {g' : ℝ}

theorem grad_fst {x : Vec 1 ℝ} {u : Vec k ℝ} (h : HasDerivAt g g' (x 0)) : IsGrad2 (fun x (_ : Vec k ℝ) => g (x 0)) x u ![g'] 0 := by
  refine ⟨g' • ((ContinuousLinearMap.proj (R := ℝ) (φ := fun _ : Fin 1 => ℝ) 0).comp (ContinuousLinearMap.fst ℝ _ _)), ?_, ?_⟩
  · have h1 : HasFDerivAt (fun p : Vec 1 ℝ × Vec k ℝ => p.1 0)
        ((ContinuousLinearMap.proj (R := ℝ) (φ := fun _ : Fin 1 => ℝ) 0).comp (ContinuousLinearMap.fst ℝ _ _)) (x, u) :=
      (hasFDerivAt_apply (𝕜 := ℝ) (F' := fun _ : Fin 1 => ℝ) 0 _).comp _ hasFDerivAt_fst
    exact h.comp_hasFDerivAt (x, u) h1
  · intro ξ v; simp [dotProduct]

theorem grad_snd {x : Vec k ℝ} {u : Vec 1 ℝ} (h : HasDerivAt g g' (u 0)) : IsGrad2 (fun (_ : Vec k ℝ) u => g (u 0)) x u 0 ![g'] := by
  refine ⟨g' • ((ContinuousLinearMap.proj (R := ℝ) (φ := fun _ : Fin 1 => ℝ) 0).comp (ContinuousLinearMap.snd ℝ _ _)), ?_, ?_⟩
  · have h1 : HasFDerivAt (fun p : Vec k ℝ × Vec 1 ℝ => p.2 0)
        ((ContinuousLinearMap.proj (R := ℝ) (φ := fun _ : Fin 1 => ℝ) 0).comp (ContinuousLinearMap.snd ℝ _ _)) (x, u) :=
      (hasFDerivAt_apply (𝕜 := ℝ) (F' := fun _ : Fin 1 => ℝ) 0 _).comp _ hasFDerivAt_snd
    exact h.comp_hasFDerivAt (x, u) h1
  · intro ξ v; simp [dotProduct]

theorem jac_of_grad {a b : ℕ} {f : Vec a ℝ → Vec b ℝ → ℝ} {x : Vec a ℝ} {u : Vec b ℝ} {p : Vec a ℝ} {q : Vec b ℝ} (h : IsGrad2 f x u p q) :
    IsJac2 (fun x u => ![f x u]) x u (fun _ => p) (fun _ => q) := by
  obtain ⟨D, hD, hv⟩ := h
  refine ⟨ContinuousLinearMap.pi fun _ : Fin 1 => D, ?_, ?_⟩
  · rw [hasFDerivAt_pi']
    intro i
    fin_cases i
    exact hD
  · intro ξ v
    ext i
    simp [hv, mulVec]

theorem jac_const {a b c : ℕ} (w : Vec c ℝ) (x : Vec a ℝ) (u : Vec b ℝ) : IsJac2 (fun _ _ => w) x u 0 0 :=
  ⟨0, hasFDerivAt_const _ _, by intro ξ v; simp⟩

end Scalar

/-- `x' = x + u`, running cost `u²/2`, terminal cost `x²/2 + x⁴/24`. -/
noncomputable def quartic : SmoothProblem 1 (fun _ => 1) where
  A _ := 1
  B _ := 1
  c _ := 0
  l _ _ u := u 0 ^ 2 / 2
  φ _ x := x 0 ^ 2 / 2 + x 0 ^ 4 / 24
  dl _ _ u := { Lx := 0, Lu := ![u 0], Lxx := 0, Luu := fun _ => ![1], Lxu := 0 }
  dφ _ x := { Vx := ![x 0 + x 0 ^ 3 / 6], Vxx := fun _ => ![1 + x 0 ^ 2 / 2] }

/-- The trajectory from `13/6` of the input `u`. -/
noncomputable def quarticTraj (u : ℝ) : ControlData 1 ℝ where
  xs := [![13 / 6], ![13 / 6 + u]]
  us := [⟨1, ![u]⟩]
  costs := [u ^ 2 / 2, (13 / 6 + u) ^ 2 / 2 + (13 / 6 + u) ^ 4 / 24]

theorem quarticTraj_isTrajectory (u : ℝ) : IsTrajectory quartic.callbacks 0 1 1 ![13 / 6] (quarticTraj u) where
  lenX := rfl
  lenU := rfl
  lenC := rfl
  start := rfl
  step i hi := by
    have : i = 0 := by omega
    subst this
    refine ⟨![13 / 6], ![u], rfl, rfl, ?_, ?_⟩
    · simp [quarticTraj, quartic, SmoothProblem.callbacks]
    · simp [quarticTraj, quartic, SmoothProblem.callbacks]
  term := ⟨![13 / 6 + u], rfl, by simp [quarticTraj, quartic, SmoothProblem.callbacks]⟩

theorem quartic_trajectory {d : ControlData 1 ℝ} (h : IsTrajectory quartic.callbacks 0 1 1 ![13 / 6] d) :
    ∃ u, d = quarticTraj u := by
  obtain ⟨c, hc, rfl⟩ := h.exists_ctrl (lim := none)
  refine ⟨c.u 0 0, ?_⟩
  obtain ⟨c', hc', h2⟩ := (quarticTraj_isTrajectory (c.u 0 0)).exists_ctrl (lim := none)
  rw [← h2]
  refine consistent_ext hc hc' fun j hj => ?_
  have : j = 0 := by omega
  subst this
  have h3 := inputOf_out (md := fun _ => 1) (t0 := 0) (dt := 1) (c := c') (N := 1) (i := 0) (by omega)
  rw [h2] at h3
  rw [← h3]
  ext i
  fin_cases i
  rfl

theorem sqrt_sq2_one (a : Vec 1 ℝ) (b : Vec 0 ℝ) : √(sq2 a b) = |a 0| := by
  simp [sq2, dotProduct, ← pow_two, Real.sqrt_sq_eq_abs]

theorem quartic_regular : quartic.Regular 0 1 1 (stateOf (quarticTraj (-7 / 6))) (inputOf (fun _ => 1) 0 1 (quarticTraj (-7 / 6)))
    (1 / 2) 1 (3 / 2) where
  run i hi :=
    { grad := fun x u _ => by
        refine grad_snd (g := fun s => s ^ 2 / 2) ?_
        have := ((hasDerivAt_id' (u 0)).pow 2).div_const 2
        exact this.congr_deriv (by simp)
      hessX := fun x u _ => jac_const 0 x u
      hessU := fun x u _ => by
        have := jac_of_grad (grad_snd (k := 1) (x := x) (u := u) (hasDerivAt_id' (u 0)))
        exact this
      symm := fun x u _ => ⟨isSymm_zero, by ext i j; fin_cases i; fin_cases j; rfl⟩
      lip := fun x u x' u' _ _ ax au bx bu => by
        simp only [quartic, LDeriv.bil, sub_self, abs_zero]
        positivity }
  term :=
    { grad := fun x u _ => by
        have h1 : HasDerivAt (fun s : ℝ => s ^ 2 / 2 + s ^ 4 / 24) (x 0 + x 0 ^ 3 / 6) (x 0) := by
          have := (((hasDerivAt_id' (x 0)).pow 2).div_const 2).add (((hasDerivAt_id' (x 0)).pow 4).div_const 24)
          exact this.congr_deriv (by simp; ring)
        exact grad_fst (k := 0) (u := u) h1
      hessX := fun x u _ => by
        have h1 : HasDerivAt (fun s : ℝ => s + s ^ 3 / 6) (1 + x 0 ^ 2 / 2) (x 0) := by
          have := (hasDerivAt_id' (x 0)).add (((hasDerivAt_id' (x 0)).pow 3).div_const 6)
          exact this.congr_deriv (by simp; ring)
        exact jac_of_grad (grad_fst (k := 0) (u := u) h1)
      hessU := fun x u _ => by
        have := jac_const (0 : Vec 0 ℝ) x u
        exact this
      symm := fun x u _ => ⟨by ext i j; fin_cases i; fin_cases j; rfl, isSymm_zero⟩
      lip := fun x u x' u' h h' ax au bx bu => by
        simp only [sqrt_sq2_one]
        have hs : stateOf (quarticTraj (-7 / 6)) 1 = ![1] := by
          simp [stateOf, quarticTraj]; norm_num
        rw [hs] at h h'
        have hb : |x 0| ≤ 3 / 2 := by
          simp [sq2, dotProduct] at h
          exact abs_le.2 ⟨by nlinarith, by nlinarith⟩
        have hb' : |x' 0| ≤ 3 / 2 := by
          simp [sq2, dotProduct] at h'
          exact abs_le.2 ⟨by nlinarith, by nlinarith⟩
        have e : ((quartic.dφ (timeAt 0 1 1) x').toL).bil ax au bx bu - ((quartic.dφ (timeAt 0 1 1) x).toL).bil ax au bx bu =
            (x' 0 + x 0) / 2 * ((x' 0 - x 0) * ax 0 * bx 0) := by
          simp [LDeriv.bil, VDeriv.toL, quartic, mulVec, dotProduct]; ring
        rw [e, abs_mul]
        have h3 : |(x' 0 + x 0) / 2| ≤ 3 / 2 := by
          rw [abs_le] at *
          constructor <;> linarith [hb.1, hb.2, hb'.1, hb'.2]
        refine (mul_le_mul_of_nonneg_right h3 (abs_nonneg _)).trans (le_of_eq ?_)
        rw [abs_mul, abs_mul]
        simp only [Pi.sub_apply]
        ring }
  convex i hi x u _ dx du := by
    simp [quartic, mulVec, dotProduct]
    nlinarith [mul_self_nonneg (du 0)]
  input i hi x u _ := by
    refine posDef_iff.2 ⟨by ext i j; fin_cases i; fin_cases j; rfl, fun v hv => ?_⟩
    have : v 0 ≠ 0 := fun h => hv (by ext i; fin_cases i; exact h)
    simpa [quartic, mulVec, dotProduct] using this
  termConvex x _ := by
    refine posSemidef_iff.2 ⟨by ext i j; fin_cases i; fin_cases j; rfl, fun v => ?_⟩
    simp [quartic, mulVec, dotProduct]
    nlinarith [mul_self_nonneg (v 0), mul_self_nonneg (v 0 * x 0)]
  curv x u _ _ ex eu h0 h1 := by
    have h2 := h1 0 (by omega)
    simp [quartic, h0] at h2
    simp [quartic, h0, h2, mulVec, dotProduct]
    nlinarith [mul_self_nonneg (eu 0 0), mul_self_nonneg (eu 0 0 * x 1 0)]

/-- The input `-7/6` is the minimiser. -/
theorem quartic_min (u : ℝ) : (quarticTraj (-7 / 6)).costs.sum ≤ (quarticTraj u).costs.sum := by
  simp only [quarticTraj, List.sum_cons, List.sum_nil]
  nlinarith [sq_nonneg (u + 7 / 6), sq_nonneg ((13 / 6 + u) ^ 2 - 1), sq_nonneg ((13 / 6 + u) - 1), sq_nonneg ((13 / 6 + u) + 1)]

/-- C113: from the input `-11/12` the iterates converge quadratically to the solution. -/
example (as : List ℝ) (maxIter : ℤ) (lim) (o : Obj 1 ℝ) (scratch) :
    ∃ e0 st fin, (solve exactLLT quartic.callbacks lim 1 { defaultConfig (1 :: as) maxIter 1 with initialLambda := 0 } o 0 scratch ![13 / 6]
        [⟨1, ![-11 / 12]⟩]).1.trace = e0 :: (st ++ fin) ∧ (∀ e ∈ st, e.alpha = 1) ∧
      3 / 4 * trajDist (fun _ => 1) 0 1 1 (quarticTraj (-7 / 6))
          (solve exactLLT quartic.callbacks lim 1 { defaultConfig (1 :: as) maxIter 1 with initialLambda := 0 } o 0 scratch ![13 / 6]
            [⟨1, ![-11 / 12]⟩]).1.control ≤ (3 / 4 * √(1 / 8)) ^ 2 ^ st.length := by
  have hd : trajDist (fun _ => 1) 0 1 1 (quarticTraj (-7 / 6)) (quarticTraj (-11 / 12)) = √(1 / 8) := by
    have h1 : inputOf (fun _ => 1) 0 1 (quarticTraj (-7 / 6)) 0 = ![-7 / 6] := rfl
    have h2 : inputOf (fun _ => 1) 0 1 (quarticTraj (-11 / 12)) 0 = ![-11 / 12] := rfl
    simp only [trajDist, range_one, sum_singleton, h1, h2]
    congr 1
    simp [stateOf, quarticTraj, dotProduct]
    norm_num
  have := C113_quadratic (p := quartic) (L := exactLLT) (lim := lim) (o := o) (scratch := scratch) (t0 := 0) (dt := 1) (x0 := ![13 / 6])
    (cfg := { defaultConfig (1 :: as) maxIter 1 with initialLambda := 0 }) (us := [⟨1, ![-11 / 12]⟩])
    (ds := quarticTraj (-7 / 6)) (d0 := quarticTraj (-11 / 12)) (r := 1 / 2) (ρ := 1) (M := 3 / 2) exactLLT_exact rfl rfl
    (by simp only [defaultConfig, lit_real]; norm_num) (by simp only [defaultConfig, lit_real]; norm_num)
    (by simp only [defaultConfig, lit_real]; norm_num) rfl rfl rfl
    (by intro i hi; have : i = 0 := by simpa using hi
        subst this; rfl)
    (by norm_num) (by norm_num) (by norm_num) (by norm_num) (by simp only [defaultConfig]; norm_num) (quarticTraj_isTrajectory _)
    quartic_regular (fun d h _ => by obtain ⟨u, rfl⟩ := quartic_trajectory h; exact quartic_min u) (quarticTraj_isTrajectory _) rfl
    (by
      show trajDist _ 0 1 1 _ _ ≤ _
      rw [hd, Real.sqrt_le_left (by norm_num)]; norm_num)
  obtain ⟨e0, st, fin, h1, h2, -, h3⟩ := this
  refine ⟨e0, st, fin, h1, h2, ?_⟩
  change 3 / 2 / (2 * 1) * trajDist _ 0 1 1 _ _ ≤ (3 / 2 / (2 * 1) * trajDist _ 0 1 1 _ _) ^ _ at h3
  rw [hd] at h3
  norm_num at h3 ⊢
  exact h3

/-- A linear-quadratic problem is one of the problems of C113. -/
noncomputable def LQProblem.smooth {n : ℕ} {md : ℝ → ℕ} (p : LQProblem n md) : SmoothProblem n md where
  A := p.A
  B := p.B
  c := p.c
  l := p.callbacks.runningCost
  φ := p.callbacks.terminalCost
  dl t x u := p.callbacks.runningCostDeriv t x u { Lx := 0, Lu := 0, Lxx := 0, Luu := 0, Lxu := 0 }
  dφ t x := p.callbacks.terminalCostDeriv t x { Vx := 0, Vxx := 0 }

/-- C113: "minimise `u²/2`" from `u = 1`: one iteration, the full step is accepted, and the result minimises the second-order model. -/
example (lim) (o : Obj 1 ℝ) (scratch) (cfg : Config ℝ)
    (hcfg : cfg = { defaultConfig [1, 1 / 2] 1 1 with initialLambda := 0, lambdaThre := 0, costUpdateThre := 2 }) :
    ∀ d, IsTrajectory halving.smooth.callbacks 0 1 1 ![0] d →
      halving.smooth.model 0 1 1 ⟨[![0], ![0]], [⟨1, ![1]⟩], [1 / 2, 0]⟩
          (solve exactLLT halving.smooth.callbacks lim 1 cfg o 0 scratch ![0] [⟨1, ![1]⟩]).1.control ≤
        halving.smooth.model 0 1 1 ⟨[![0], ![0]], [⟨1, ![1]⟩], [1 / 2, 0]⟩ d := by
  obtain ⟨-, hlen, -, ⟨e1, he1, ha, hr⟩, -⟩ := C109_large_lambda (cfg := cfg) (as := [1 / 2]) (by simp [hcfg, defaultConfig])
    (by simp [hcfg, defaultConfig]) (by simp [hcfg, defaultConfig]) (by simp [hcfg, defaultConfig]) (by simp [hcfg, defaultConfig])
    (by simp [hcfg, defaultConfig]) (by simp [hcfg, defaultConfig]) (by simp [hcfg]) (by simp [hcfg]) (by simp [hcfg]) lim o scratch
  have htr : ∃ e0, (solve exactLLT halving.callbacks lim 1 cfg o 0 scratch ![0] [⟨1, ![1]⟩]).1.trace = [e0, e1] := by
    generalize (solve exactLLT halving.callbacks lim 1 cfg o 0 scratch ![0] [⟨1, ![1]⟩]).1.trace = l at *
    match l, hlen with
    | [a, b], _ => simp at he1; exact ⟨a, by rw [he1]⟩
  obtain ⟨e0, htr⟩ := htr
  intro d hd
  refine (C113_newton (p := halving.smooth) (L := exactLLT) (cfg := cfg) (us := [⟨1, ![1]⟩]) (e0 := e0) (e1 := e1) exactLLT_exact
    (by simp [hcfg, defaultConfig]) (by simp [hcfg, defaultConfig]) (by simp [hcfg]) (by simp [hcfg, defaultConfig])
    (by simp [hcfg, defaultConfig]) ?_ ?_ rfl ?_ ?_ ?_ ?_ htr ha ?_ d hd).1
  · intro i hi
    have : i = 0 := by simpa using hi
    subst this; rfl
  · refine ⟨rfl, rfl, rfl, rfl, fun i hi => ?_, ![0], rfl, ?_⟩
    · have : i = 0 := by simpa using hi
      subst this
      refine ⟨![0], ![1], rfl, rfl, ?_, ?_⟩ <;>
        simp [halving, LQProblem.smooth, SmoothProblem.callbacks, LQProblem.callbacks, dotProduct]
    · simp [halving, LQProblem.smooth, SmoothProblem.callbacks, LQProblem.callbacks, dotProduct]
  · exact fun i _ => isSymm_zero
  · intro i _ dx du
    simp [halving, LQProblem.smooth, LQProblem.callbacks, dotProduct]
    exact mul_self_nonneg _
  · exact fun i _ => Matrix.PosDef.one
  · exact Matrix.PosSemidef.zero
  · rw [hr]; simp [hcfg, defaultConfig]

end Nmpc.DDP
