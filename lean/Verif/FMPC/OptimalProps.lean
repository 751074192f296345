import Verif.FMPC.Optimal
import Verif.FMPC.Examples
import Mathlib.Analysis.Convex.Mul

/-!
# FMPC: what `Succeeded` says about the cost (C100)
-/

set_option linter.unusedSectionVars false

namespace Nmpc.FMPC

open DDP (FDeriv LDeriv VDeriv timeAt)
open Matrix Finset

section Props
variable {n : ℕ} {md pd : ℝ → ℕ} {L : GainSolver ℝ} {P : Callbacks n md pd} {dt : ℝ} {cfg : Config ℝ} {o : Obj n ℝ}
  {t0 : ℝ} {sc : Scratch n (fun i => md (timeAt t0 dt i)) (fun i => pd (timeAt t0 dt i)) ℝ} {x0 : Vec n ℝ}
  {init : VarL n ℝ}

theorem out_pos_nu {N : ℕ} {m p : ℕ → ℕ} {v : Var n m p ℝ} (h : (v.out N).Pos) : v.Pos N := by
  constructor
  · intro i hi j
    exact h.1 ⟨p i, v.s i⟩ (List.mem_map.2 ⟨i, List.mem_range.2 hi, rfl⟩) j
  · intro i hi j
    exact h.2 ⟨p i, v.nu i⟩ (List.mem_map.2 ⟨i, List.mem_range.2 hi, rfl⟩) j

/-- **C100.**  Convex problem, positive slacks and multipliers at the start (or `init_complementary_variable`): if `solve`
returns `Succeeded`, then `variable()` violates no inequality by more than `kkt_error_thre`, and its cost exceeds the cost of
any feasible trajectory by at most `kkt_error_thre` times an explicit sum: 1-norms of the returned multipliers, number of
inequalities and 1-norm of the distance to that trajectory. -/
theorem C100_near_optimal (hP : ConvexProblem P) (hdt : 0 ≤ dt) (hp : cfg.initComplementary = true ∨ init.Pos)
    {o' : Obj n ℝ} (h : solve L P dt cfg o t0 sc x0 init = (o', .ok .succeeded)) :
    ∃ v : Var n (fun i => md (timeAt t0 dt i)) (fun i => pd (timeAt t0 dt i)) ℝ, o'.var = v.out cfg.horizon.toNat ∧
      (∀ i < cfg.horizon.toNat, ∀ j, P.ineqConst (timeAt t0 dt i) (v.x i) (v.u i) j < cfg.kktErrorThre) ∧
      ∀ y z, FeasibleTraj P t0 dt x0 cfg.horizon.toNat y z →
        trajCost P t0 dt cfg.horizon.toNat v.x v.u ≤ trajCost P t0 dt cfg.horizon.toNat y z +
          cfg.kktErrorThre * (l1 (v.lam 0) + l1 (y cfg.horizon.toNat - v.x cfg.horizon.toNat) +
            ∑ i ∈ range cfg.horizon.toNat, (l1 (y i - v.x i) + l1 (z i - v.u i) + l1 (v.lam (i + 1)) + l1 (v.nu i) +
              (pd (timeAt t0 dt i) : ℝ))) := by
  obtain ⟨v, dF, dG, dL, dV, hv, hd, hk⟩ := C29_kkt h
  have hpos := (C28_positive hp h).1
  rw [hv] at hpos
  have hpos' := out_pos_nu hpos
  refine ⟨v, hv, fun i hi j => ?_, fun y z hy => kkt_gap hP hdt hd hk (fun i hi j => (hpos'.2 i hi j).le) hy⟩
  have h1 := (abs_le.1 ((hk.each.2.2 i hi).2.1 j)).2
  have := hpos'.1 i hi j
  linarith

/-- **C100**, threshold zero: a point that the solver accepts with `kkt_error_thre = 0` is feasible and has the smallest cost
of all feasible trajectories. -/
theorem C100_optimal (hP : ConvexProblem P) (hdt : 0 ≤ dt) (hp : cfg.initComplementary = true ∨ init.Pos)
    (hth : cfg.kktErrorThre = 0) {o' : Obj n ℝ} (h : solve L P dt cfg o t0 sc x0 init = (o', .ok .succeeded)) :
    ∃ v : Var n (fun i => md (timeAt t0 dt i)) (fun i => pd (timeAt t0 dt i)) ℝ, o'.var = v.out cfg.horizon.toNat ∧
      FeasibleTraj P t0 dt x0 cfg.horizon.toNat v.x v.u ∧
      ∀ y z, FeasibleTraj P t0 dt x0 cfg.horizon.toNat y z →
        trajCost P t0 dt cfg.horizon.toNat v.x v.u ≤ trajCost P t0 dt cfg.horizon.toNat y z := by
  obtain ⟨v, dF, dG, dL, dV, hv, hd, hk⟩ := C29_kkt h
  have hpos := (C28_positive hp h).1
  rw [hv] at hpos
  have hpos' := out_pos_nu hpos
  rw [hth] at hk
  obtain ⟨k0, -, ks⟩ := hk.each
  refine ⟨v, hv, ⟨?_, fun i hi => ?_, fun i hi j => (ks i hi).2.2.2.2.2 j (hpos'.1 i hi j).le⟩, fun y z hy => ?_⟩
  · funext j
    have := abs_nonpos_iff.1 (k0 j)
    linarith
  · funext j
    have := abs_nonpos_iff.1 ((ks i hi).1 j)
    linarith
  · have := kkt_gap hP hdt hd hk (fun i hi j => (hpos'.2 i hi j).le) hy
    rwa [zero_mul, add_zero] at this

/-- **C100**, equality-constrained linear-quadratic problems (with C43): if `solve` needs the second iteration, the trajectory
it returns is the cheapest one that satisfies the dynamics. -/
theorem C100_lq {D : LQData n (fun i => md (timeAt t0 dt i))} (hP : IsLQ (stagesOf P t0 dt cfg.horizon.toNat) D)
    (hD : D.Convex cfg.horizon.toNat) (hC : ConvexProblem P) (hL : ExactGain L) (hdt : 0 < dt)
    (hU : cfg.updateBarrierEps = false)
    (hls : cfg.enableLineSearch = false) (hI : cfg.initComplementary = false) (hth : 0 ≤ cfg.kktErrorThre)
    (hm : 2 ≤ cfg.maxIter) (hl : LengthsOk cfg.horizon init) (hd : DimsOk md pd t0 dt init) (hn : NonNeg init) :
    ∃ o', solve L P dt cfg o t0 sc x0 init = (o', .ok .succeeded) ∧
      (o'.trace.length = 1 ∨ (o'.trace.length = 2 ∧
        ∃ v : Var n (fun i => md (timeAt t0 dt i)) (fun i => pd (timeAt t0 dt i)) ℝ, o'.var = v.out cfg.horizon.toNat ∧
          FeasibleTraj P t0 dt x0 cfg.horizon.toNat v.x v.u ∧
          ∀ y z, FeasibleTraj P t0 dt x0 cfg.horizon.toNat y z →
            trajCost P t0 dt cfg.horizon.toNat v.x v.u ≤ trajCost P t0 dt cfg.horizon.toNat y z)) := by
  obtain ⟨o', h1, h2⟩ := C43_lq (L := L) (o := o) (x0 := x0) (sc := sc) hP hD hL hdt hU hls hI hth hm hl hd hn
  refine ⟨o', h1, h2.imp_right ?_⟩
  rintro ⟨ht, v, dF, dG, dL, dV, hv, hd, hk⟩
  obtain ⟨k0, -, ks⟩ := hk.each
  refine ⟨ht, v, hv, ⟨?_, fun i hi => ?_, fun i hi j => (fin_elim (hP.none i) j).elim⟩, fun y z hy => ?_⟩
  · funext j
    have := abs_nonpos_iff.1 (k0 j)
    linarith
  · funext j
    have := abs_nonpos_iff.1 ((ks i hi).1 j)
    linarith
  · have := kkt_gap hC hdt.le hd hk (fun i hi j => (fin_elim (hP.none i) j).elim) hy
    rwa [zero_mul, add_zero] at this

/-- A function that is convex along every line lies above its tangents: how the hypotheses of `ConvexProblem` follow from
convexity of the costs and correct gradients. -/
theorem tangent_le {E : Type*} [AddCommGroup E] [Module ℝ E] {f : E → ℝ} (hf : ConvexOn ℝ Set.univ f) {x y : E} {g : ℝ}
    (hg : HasDerivAt (fun t : ℝ => f (x + t • (y - x))) g 0) : f x + g ≤ f y := by
  have h1 : ConvexOn ℝ Set.univ (fun t : ℝ => f (x + t • (y - x))) := by
    refine ⟨convex_univ, fun s _ t _ a b ha hb hab => ?_⟩
    have := hf.2 (Set.mem_univ (x + s • (y - x))) (Set.mem_univ (x + t • (y - x))) ha hb hab
    have e : a • (x + s • (y - x)) + b • (x + t • (y - x)) = x + (a • s + b • t) • (y - x) := by
      obtain rfl : b = 1 - a := by linarith
      simp only [smul_eq_mul]
      module
    rw [e] at this
    exact this
  have h2 := h1.le_slope_of_hasDerivAt (Set.mem_univ 0) (Set.mem_univ 1) one_pos hg
  rw [slope_def_field] at h2
  simp at h2
  linarith

end Props

/-! ## Without convexity -/

section Peak

/-- One state, one input, no inequality constraints: the input does not act on the state and has cost `-½ u²`. -/
noncomputable def peak : Callbacks 1 (fun _ : ℝ => 1) (fun _ => 0) where
  stateEq _ x _ := x
  runningCost _ _ u := - (1 / 2) * (u ⬝ᵥ u)
  terminalCost _ _ := 0
  ineqConst _ _ _ := fun _ => 0
  stateEqDeriv _ _ _ _ := { Fx := 1, Fu := 0 }
  ineqConstDeriv _ _ _ _ := { C := 0, D := 0 }
  runningCostDeriv _ _ u _ := { Lx := 0, Lu := - u, Lxx := 0, Luu := - 1, Lxu := 0 }
  terminalCostDeriv _ _ _ := { Vx := 0, Vxx := 0 }

/-- The initial variable: everything zero, one step. -/
def peakInit : VarL 1 ℝ where
  xs := [fun _ => 0, fun _ => 0]
  us := [⟨1, fun _ => 0⟩]
  lams := [fun _ => 0, fun _ => 0]
  ss := [⟨0, fun _ => 0⟩]
  nus := [⟨0, fun _ => 0⟩]

/-- **C100** (convexity is needed)  With a concave cost the solver returns `Succeeded` at the worst input, whatever linear
solver, configuration of the iteration limit and threshold are used: the cost of the returned point is 0 and there are
feasible trajectories of arbitrarily low cost. -/
theorem C100_nonconvex (L : GainSolver ℝ) (cfg : Config ℝ) (hU : cfg.updateBarrierEps = false)
    (hI : cfg.initComplementary = false) (hh : cfg.horizon = 1) (hm : 1 ≤ cfg.maxIter) (hth : 0 ≤ cfg.kktErrorThre)
    (o : Obj 1 ℝ) (sc : Scratch 1 (fun i => (fun _ : ℝ => 1) (timeAt 0 1 i)) (fun i => (fun _ : ℝ => 0) (timeAt 0 1 i)) ℝ) :
    ∃ o', solve L peak 1 cfg o 0 sc (fun _ => 0) peakInit = (o', .ok .succeeded) ∧ o'.var = peakInit ∧
      trajCost peak 0 1 1 (fun _ _ => 0) (fun _ _ => 0) = 0 ∧
      ∀ c : ℝ, ∃ y z, FeasibleTraj peak 0 1 (fun _ => 0) 1 y z ∧ trajCost peak 0 1 1 y z < c := by
  have hl : LengthsOk cfg.horizon peakInit := by rw [hh]; simp [LengthsOk, peakInit]
  have hd : DimsOk (fun _ : ℝ => 1) (fun _ => 0) 0 1 peakInit := by
    refine ⟨?_, ?_, ?_⟩ <;>
    · intro i hi
      simp only [peakInit, List.length_cons, List.length_nil] at hi
      match i, hi with
      | 0, _ => rfl
  have hn : NonNeg peakInit := by
    constructor <;>
    · intro e he j
      simp only [peakInit, List.mem_cons, List.not_mem_nil, or_false] at he
      subst he
      exact j.elim0
  have hc : checkVariable (fun _ : ℝ => 1) (fun _ => 0) 0 1 cfg.horizon peakInit = .ok () :=
    (checkVariable_iff peakInit).2.2.2 ⟨hl, hd, hn⟩
  set w0 := initSolver (m := fun i => (fun _ : ℝ => 1) (timeAt 0 1 i)) (p := fun i => (fun _ : ℝ => 0) (timeAt 0 1 i)) peakInit
    o.eps sc with hw0
  have hk : ∀ e, leb (kktOf 1 (fun _ => 0) (prepared 1 (stagesOf peak 0 1 1) w0 e)) cfg.kktErrorThre = true := by
    intro e
    rw [leb_real]
    refine (kktOf_prepared (P := peak) (x0 := fun _ => 0) (dt := 1) (t0 := 0) 1 w0 e _).2 ?_
    have hx : w0.var.x 0 = fun _ => 0 := rfl
    have hx1 : w0.var.x 1 = fun _ => 0 := rfl
    have hu : w0.var.u 0 = fun _ => 0 := rfl
    have hl0 : w0.var.lam 0 = fun _ => 0 := rfl
    have hl1 : w0.var.lam 1 = fun _ => 0 := rfl
    unfold KktWithin stageResidual
    simp only [sum_range_one, hx, hx1, hu, hl0, hl1, zero_add]
    refine le_trans (le_of_eq ?_) hth
    rw [Real.sqrt_eq_zero']
    apply le_of_eq
    simp [peak, prepared, calcCoeff, calcTerm, stagesOf]
    exact congrFun hu 0
  have h1 : ∃ w', procOnce L 1 cfg (stagesOf peak 0 1 1) (fun _ => 0) 1 w0 = .ok (w', .succeeded) ∧ w'.var = w0.var := by
    have hout := procOnce_out (L := L) (N := 1) (cfg := cfg) (S := stagesOf peak 0 1 1) (x0 := fun _ => 0) 1 w0
    generalize hx : procOnce L 1 cfg (stagesOf peak 0 1 1) (fun _ => 0) 1 w0 = x at hout
    cases hout with
    | ubEps hp =>
      unfold prepare at hp
      rw [hU] at hp
      cases hp
    | succeeded e he hk => exact ⟨_, rfl, rfl⟩
    | backward e he hk2 => rw [hk e] at hk2; cases hk2
    | forward e he hk2 => rw [hk e] at hk2; cases hk2
    | update e he hk2 => rw [hk e] at hk2; cases hk2
  obtain ⟨w1, h1, h2⟩ := h1
  obtain ⟨r, hr⟩ : ∃ r, cfg.maxIter.toNat = r + 1 := ⟨cfg.maxIter.toNat - 1, by omega⟩
  obtain ⟨e1, he1, _, ht1, _⟩ := procOnce_frame h1
  have ht : w1.trace ≠ [] := by rw [ht1]; simp
  have hopt : optLoop L 1 cfg (stagesOf peak 0 1 1) (fun _ => 0) cfg.maxIter.toNat 1 .uninitialized w0 =
      .ok (w1, .succeeded) := by
    rw [hr]; unfold optLoop; rw [h1]; simp
  have hlen : peakInit.us.length = 1 := rfl
  refine ⟨{ var := w1.var.out 1, trace := w1.trace, eps := w1.eps }, ?_, ?_, ?_, ?_⟩
  · unfold solve runSolver
    simp only [hI, Bool.false_eq_true, if_false, hc, hlen, ← hw0, hopt, Res.bind_ok, ht, and_false]
    rfl
  · dsimp only
    rw [h2]
    rfl
  · simp [trajCost, peak]
  · intro c
    refine ⟨fun _ _ => 0, fun _ _ => 2 * |c| + 2, ⟨rfl, fun _ _ => rfl, fun _ _ j => j.elim0⟩, ?_⟩
    simp only [trajCost, peak, sum_range_one, dotProduct, univ_unique, sum_singleton]
    nlinarith [abs_nonneg c, neg_abs_le c, mul_nonneg (abs_nonneg c) (abs_nonneg c)]

end Peak

/-! ## Examples -/

section Examples

/-- The example problem of `Examples.lean` (double integrator, box constraint on the input) is convex. -/
theorem box_convexProblem (p : ℕ) (D : Mat p 1 ℝ) : ConvexProblem (dbl p D) where
  dyn _ x u x' u' _ := by
    simp only [dbl, mulVec_sub]
    abel
  ineq _ x u x' u' _ j := by
    simp only [dbl, mulVec_sub, zero_mulVec, Pi.sub_apply, Pi.zero_apply]
    linarith
  cost _ x u x' u' _ := by
    simp only [dbl, dotProduct_sub]
    have h1 := dot_self_nonneg (x' - x)
    have h2 := dot_self_nonneg (u' - u)
    simp only [sub_dotProduct, dotProduct_sub] at h1 h2
    rw [dotProduct_comm x' x] at h1
    rw [dotProduct_comm u' u] at h2
    linarith
  term _ x x' _ := by
    simp only [dbl, dotProduct_sub]
    have h1 := dot_self_nonneg (x' - x)
    simp only [sub_dotProduct, dotProduct_sub] at h1
    rw [dotProduct_comm x' x] at h1
    linarith

variable (o : Obj 2 ℝ) (x0 : Vec 2 ℝ)

/-- C100 for the example: the call with the default configuration returns, and if it succeeds its result is compared with
the trajectory without inputs. -/
example (sc : Scratch 2 (fun i => (fun _ : ℝ => 1) (timeAt 0 1 i)) (fun i => (fun _ : ℝ => 2) (timeAt 0 1 i)) ℝ) :
    ∃ o' st, solve realGain box 1 exCfg o 0 sc x0 (exInit 2) = (o', .ok st) ∧ (st = .succeeded →
      ∃ v : Var 2 (fun i => (fun _ : ℝ => 1) (timeAt 0 1 i)) (fun i => (fun _ : ℝ => 2) (timeAt 0 1 i)) ℝ, o'.var = v.out 2 ∧
        ∀ y z, FeasibleTraj box 0 1 x0 2 y z → trajCost box 0 1 2 v.x v.u ≤ trajCost box 0 1 2 y z +
          exCfg.kktErrorThre * (l1 (v.lam 0) + l1 (y 2 - v.x 2) +
            ∑ i ∈ range 2, (l1 (y i - v.x i) + l1 (z i - v.u i) + l1 (v.lam (i + 1)) + l1 (v.nu i) + ((2 : ℕ) : ℝ)))) := by
  obtain ⟨o1, st, h⟩ := ex_returns o x0 sc
  refine ⟨o1, st, h, ?_⟩
  rintro rfl
  obtain ⟨v, h1, -, h2⟩ := C100_near_optimal (box_convexProblem 2 _) zero_le_one (.inr (exPos 2)) h
  exact ⟨v, h1, h2⟩

/-- There is such a trajectory: no input, states from the dynamics. -/
example : FeasibleTraj box 0 1 x0 2 (fun i => Nat.rec x0 (fun _ x => !![1, 1; 0, 1] *ᵥ x) i) (fun _ => 0) where
  init := rfl
  dyn i _ := by simp [box, dbl]
  ineq i _ j := by fin_cases j <;> simp [box, dbl, vecHead, vecTail]

/-- C100 without inequality constraints: the default solver finds the optimum in at most two iterations, if it does not
accept the start at once. -/
example (sc : Scratch 2 (fun i => (fun _ : ℝ => 1) (timeAt 0 1 i)) (fun i => (fun _ : ℝ => 0) (timeAt 0 1 i)) ℝ) :
    ∃ o', solve realGain free 1 { exCfg with updateBarrierEps := false } o 0 sc x0 (exInit 0) = (o', .ok .succeeded) ∧
      (o'.trace.length = 1 ∨ ∃ v : Var 2 (fun i => (fun _ : ℝ => 1) (timeAt 0 1 i)) (fun i => (fun _ : ℝ => 0) (timeAt 0 1 i)) ℝ,
        o'.var = v.out 2 ∧ ∀ y z, FeasibleTraj free 0 1 x0 2 y z → trajCost free 0 1 2 v.x v.u ≤ trajCost free 0 1 2 y z) := by
  obtain ⟨o1, h, h2⟩ := C100_lq (cfg := { exCfg with updateBarrierEps := false }) (o := o) (x0 := x0)
    (sc := sc) (free_isLQ _) (freeData_convex _) (box_convexProblem 0 _) realGain_exact one_pos rfl rfl rfl
    (by simp [exCfg, defaultConfig]) (by decide) (exLengths 0) (exDims 0) (exNonNeg 0)
  refine ⟨o1, h, h2.imp_right ?_⟩
  rintro ⟨-, v, h3, -, h4⟩
  exact ⟨v, h3, h4⟩

/-- The hypotheses of `C100_nonconvex` for the default configuration without the barrier update. -/
example (L : GainSolver ℝ) (o : Obj 1 ℝ)
    (sc : Scratch 1 (fun i => (fun _ : ℝ => 1) (timeAt 0 1 i)) (fun i => (fun _ : ℝ => 0) (timeAt 0 1 i)) ℝ) :
    ∃ o', solve L peak 1 { defaultConfig 1 10 with updateBarrierEps := false } o 0 sc (fun _ => 0) peakInit =
      (o', .ok .succeeded) := by
  obtain ⟨o', h, -⟩ := C100_nonconvex L { defaultConfig 1 10 with updateBarrierEps := false } rfl rfl rfl (by decide)
    (by simp [defaultConfig]) o sc
  exact ⟨o', h⟩

/-- The tangent of `t²` at 1. -/
example (y : ℝ) : (1 : ℝ) ^ 2 + 2 * (y - 1) ≤ y ^ 2 := by
  have hf : ConvexOn ℝ Set.univ fun t : ℝ => t ^ 2 := Even.convexOn_pow (by decide)
  have h1 : HasDerivAt (fun t : ℝ => (1 + t • (y - 1)) ^ 2) (2 * (y - 1)) 0 := by
    have := (((hasDerivAt_id (0 : ℝ)).mul_const (y - 1)).const_add 1).pow 2
    have h2 : HasDerivAt (fun t : ℝ => (1 + t • (y - 1)) ^ 2) _ 0 := this
    simpa using h2
  exact tangent_le hf h1

end Examples
end Nmpc.FMPC
