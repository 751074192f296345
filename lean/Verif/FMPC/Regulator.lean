import Verif.FMPC.SlaterProps
import Verif.FMPC.Mpc

/-!
# FMPC: the value of the problem decreases along the closed loop (helper lemmas for C142)
-/

set_option linter.unusedSectionVars false

namespace Nmpc.FMPC

open DDP (FDeriv LDeriv VDeriv timeAt)
open Matrix Finset

section
variable {n m p : ℕ} {P : Callbacks n (fun _ : ℝ => m) (fun _ => p)} {dt R : ℝ} {N : ℕ}

/-- The callbacks do not depend on the time. -/
structure TimeInvariant (P : Callbacks n (fun _ : ℝ => m) (fun _ => p)) : Prop where
  stateEq : ∀ t, P.stateEq t = P.stateEq 0
  runningCost : ∀ t, P.runningCost t = P.runningCost 0
  terminalCost : ∀ t, P.terminalCost t = P.terminalCost 0
  ineqConst : ∀ t, P.ineqConst t = P.ineqConst 0
  stateEqDeriv : ∀ t, P.stateEqDeriv t = P.stateEqDeriv 0
  ineqConstDeriv : ∀ t, P.ineqConstDeriv t = P.ineqConstDeriv 0
  runningCostDeriv : ∀ t, P.runningCostDeriv t = P.runningCostDeriv 0
  terminalCostDeriv : ∀ t, P.terminalCostDeriv t = P.terminalCostDeriv 0

/-- The callbacks of time 0 at all times. -/
def frozen (P : Callbacks n (fun _ : ℝ => m) (fun _ => p)) : Callbacks n (fun _ : ℝ => m) (fun _ => p) where
  stateEq _ := P.stateEq 0
  runningCost _ := P.runningCost 0
  terminalCost _ := P.terminalCost 0
  ineqConst _ := P.ineqConst 0
  stateEqDeriv _ := P.stateEqDeriv 0
  ineqConstDeriv _ := P.ineqConstDeriv 0
  runningCostDeriv _ := P.runningCostDeriv 0
  terminalCostDeriv _ := P.terminalCostDeriv 0

theorem TimeInvariant.eq_frozen (h : TimeInvariant P) : P = frozen P := by
  have h1 : P.stateEq = fun _ => P.stateEq 0 := funext h.stateEq
  have h2 : P.runningCost = fun _ => P.runningCost 0 := funext h.runningCost
  have h3 : P.terminalCost = fun _ => P.terminalCost 0 := funext h.terminalCost
  have h4 : P.ineqConst = fun _ => P.ineqConst 0 := funext h.ineqConst
  have h5 : P.stateEqDeriv = fun _ => P.stateEqDeriv 0 := funext h.stateEqDeriv
  have h6 : P.ineqConstDeriv = fun _ => P.ineqConstDeriv 0 := funext h.ineqConstDeriv
  have h7 : P.runningCostDeriv = fun _ => P.runningCostDeriv 0 := funext h.runningCostDeriv
  have h8 : P.terminalCostDeriv = fun _ => P.terminalCostDeriv 0 := funext h.terminalCostDeriv
  obtain ⟨a, b, c, d, e, f, g, i⟩ := P
  dsimp only at h1 h2 h3 h4 h5 h6 h7 h8
  unfold frozen
  dsimp only
  rw [← h1, ← h2, ← h3, ← h4, ← h5, ← h6, ← h7, ← h8]

theorem initCompl_frozen (t0 : ℝ) (k : ℕ) (v : VarL n ℝ) : initCompl (frozen P) t0 dt k v = initCompl (frozen P) 0 dt k v := by
  induction k with
  | zero => rfl
  | succ k ih => unfold initCompl; rw [ih]; rfl

theorem solve_frozen (L : GainSolver ℝ) (cfg : Config ℝ) (o : Obj n ℝ) (t0 : ℝ) (sc : Scratch n (fun _ => m) (fun _ => p) ℝ)
    (x0 : Vec n ℝ) (init : VarL n ℝ) :
    solve L (frozen P) dt cfg o t0 sc x0 init = solve L (frozen P) dt cfg o 0 sc x0 init := by
  unfold solve
  rw [initCompl_frozen]
  generalize (if cfg.initComplementary = true then initCompl (frozen P) 0 dt cfg.horizon.toNat init else Res.ok init) = q
  cases q with
  | ok v =>
    have h1 : checkVariable (fun _ : ℝ => m) (fun _ => p) t0 dt cfg.horizon v = checkVariable (fun _ : ℝ => m) (fun _ => p) 0 dt cfg.horizon v := rfl
    have h2 : stagesOf (frozen P) t0 dt v.us.length = stagesOf (frozen P) 0 dt v.us.length := rfl
    have h3 : ∀ e, runSolver (m := fun _ => m) (p := fun _ => p) L v.us.length cfg (stagesOf (frozen P) t0 dt v.us.length) x0 (initSolver v e sc) =
        runSolver (m := fun _ => m) (p := fun _ => p) L v.us.length cfg (stagesOf (frozen P) 0 dt v.us.length) x0 (initSolver v e sc) :=
      fun e => congrArg (fun S => runSolver (m := fun _ => m) (p := fun _ => p) L v.us.length cfg S x0 (initSolver v e sc)) h2
    dsimp only
    rw [h1]
    generalize checkVariable (fun _ : ℝ => m) (fun _ => p) 0 dt cfg.horizon v = c
    cases c with
    | ok c =>
      cases c
      dsimp only
      rw [h3]
      generalize runSolver (m := fun _ => m) (p := fun _ => p) L v.us.length cfg (stagesOf (frozen P) 0 dt v.us.length) x0
        (initSolver v (if cfg.initComplementary = true then initialBarrierEps else o.eps) sc) = q
      cases q <;> rfl
    | _ => rfl
  | _ => rfl

/-- A time-invariant problem gives the same result at all times. -/
theorem TimeInvariant.solve_eq (h : TimeInvariant P) (L : GainSolver ℝ) (cfg : Config ℝ) (o : Obj n ℝ) (t0 : ℝ)
    (sc : Scratch n (fun _ => m) (fun _ => p) ℝ) (x0 : Vec n ℝ) (init : VarL n ℝ) :
    solve L P dt cfg o t0 sc x0 init = solve L P dt cfg o 0 sc x0 init := by
  rw [h.eq_frozen]
  exact solve_frozen L cfg o t0 sc x0 init

/-- A convex time-invariant problem with constraints on the inputs only, with nonnegative costs, whose terminal cost can be decreased by
the running cost with admissible inputs. -/
structure Regulator (P : Callbacks n (fun _ : ℝ => m) (fun _ => p)) (dt R : ℝ) : Prop where
  convex : ConvexProblem P
  time : TimeInvariant P
  step : 0 < dt
  inputOnly : ∀ t x x' u, P.ineqConst t x u = P.ineqConst t x' u
  interior : ∃ σ > 0, ∃ w, ∀ t x j, P.ineqConst t x w j ≤ -σ
  limited : ∀ t x u, (∀ j, P.ineqConst t x u j ≤ 1) → ‖u‖ ≤ R
  run_nonneg : ∀ t x u, 0 ≤ P.runningCost t x u
  term_nonneg : ∀ t x, 0 ≤ P.terminalCost t x
  run_smooth : ∀ t, ContDiff ℝ 1 fun q : Vec n ℝ × Vec m ℝ => P.runningCost t q.1 q.2
  ineq_smooth : ∀ t, ContDiff ℝ 1 fun q : Vec n ℝ × Vec m ℝ => P.ineqConst t q.1 q.2
  term_smooth : ∀ t, ContDiff ℝ 1 fun x => P.terminalCost t x
  terminal : ∀ t x, ∃ u, (∀ j, P.ineqConst t x u j ≤ 0) ∧
    P.terminalCost t (P.stateEq t x u) + dt * P.runningCost t x u ≤ P.terminalCost t x

/-- The smallest cost of the feasible trajectories of `N` steps from `x`. -/
noncomputable def value (P : Callbacks n (fun _ : ℝ => m) (fun _ => p)) (dt : ℝ) (N : ℕ) (x : Vec n ℝ) : ℝ :=
  sInf {c | ∃ y z, FeasibleTraj P 0 dt x N y z ∧ c = trajCost P 0 dt N y z}

theorem Regulator.cost_nonneg (h : Regulator P dt R) (y : ℕ → Vec n ℝ) (z : ℕ → Vec m ℝ) : 0 ≤ trajCost P 0 dt N y z :=
  add_nonneg (sum_nonneg fun _ _ => mul_nonneg h.step.le (h.run_nonneg _ _ _)) (h.term_nonneg _ _)

theorem Regulator.value_le (h : Regulator P dt R) {x : Vec n ℝ} {y : ℕ → Vec n ℝ} {z : ℕ → Vec m ℝ} (hf : FeasibleTraj P 0 dt x N y z) :
    value P dt N x ≤ trajCost P 0 dt N y z :=
  csInf_le ⟨0, by rintro c ⟨y, z, -, rfl⟩; exact h.cost_nonneg y z⟩ ⟨y, z, hf, rfl⟩

/-- Every admissible input sequence gives a feasible trajectory. -/
theorem Regulator.feasible (h : Regulator P dt R) (x : Vec n ℝ) {z : ℕ → Vec m ℝ} (hz : ∀ i < N, ∀ j, P.ineqConst 0 0 (z i) j ≤ 0) :
    FeasibleTraj P 0 dt x N (rollOut P 0 dt x z) z :=
  ⟨rfl, fun _ _ => rfl, fun i hi j => by rw [h.time.ineqConst, h.inputOnly 0 _ 0]; exact hz i hi j⟩

theorem Regulator.le_value (h : Regulator P dt R) {x : Vec n ℝ} {c : ℝ}
    (hc : ∀ y z, FeasibleTraj P 0 dt x N y z → c ≤ trajCost P 0 dt N y z) : c ≤ value P dt N x := by
  obtain ⟨σ, hσ, w, hw⟩ := h.interior
  refine le_csInf ⟨_, _, _, h.feasible x (z := fun _ => w) (fun _ _ j => (hw _ _ j).trans (by linarith)), rfl⟩ ?_
  rintro _ ⟨y, z, hf, rfl⟩
  exact hc y z hf

/-- The value is at most the terminal cost. -/
theorem Regulator.value_le_term (h : Regulator P dt R) (x : Vec n ℝ) : value P dt N x ≤ P.terminalCost 0 x := by
  choose κ hκ using h.terminal 0
  set y : ℕ → Vec n ℝ := fun i => Nat.rec x (fun _ y => P.stateEq 0 y (κ y)) i with hy
  have hf : FeasibleTraj P 0 dt x N y (fun i => κ (y i)) :=
    ⟨rfl, fun i _ => by rw [h.time.stateEq], fun i _ j => by rw [h.time.ineqConst]; exact (hκ _).1 j⟩
  refine (h.value_le hf).trans ?_
  have key : ∀ k, (∑ i ∈ range k, dt * P.runningCost 0 (y i) (κ (y i))) + P.terminalCost 0 (y k) ≤ P.terminalCost 0 x := by
    intro k
    induction k with
    | zero => simp [hy]
    | succ k ih =>
      have h1 := (hκ (y k)).2
      have h2 : y (k + 1) = P.stateEq 0 (y k) (κ (y k)) := rfl
      rw [← h2] at h1
      rw [sum_range_succ]
      linarith
  unfold trajCost
  simp only [h.time.runningCost, h.time.terminalCost (timeAt _ _ _)]
  exact key N

/-- The value is at least the first stage cost. -/
theorem Regulator.stage_le_value (h : Regulator P dt R) (hN : 0 < N) {x : Vec n ℝ} {c : ℝ} (hc : ∀ u, c ≤ dt * P.runningCost 0 x u) :
    c ≤ value P dt N x := by
  refine h.le_value fun y z hf => ?_
  unfold trajCost
  have h1 := single_le_sum (f := fun i => dt * P.runningCost (timeAt 0 dt i) (y i) (z i))
    (fun i _ => mul_nonneg h.step.le (h.run_nonneg _ _ _)) (mem_range.2 hN)
  have h2 := hc (z 0)
  have h3 := h.term_nonneg (timeAt 0 dt N) (y N)
  rw [h.time.runningCost, hf.init] at h1
  linarith

/-- The shifted trajectory, continued with the terminal input. -/
theorem Regulator.shift (h : Regulator P dt R) (hN : 0 < N) {x : Vec n ℝ} {y : ℕ → Vec n ℝ} {z : ℕ → Vec m ℝ}
    (hf : FeasibleTraj P 0 dt x N y z) : ∃ y' z', FeasibleTraj P 0 dt (P.stateEq 0 x (z 0)) N y' z' ∧
      trajCost P 0 dt N y' z' + dt * P.runningCost 0 x (z 0) ≤ trajCost P 0 dt N y z := by
  obtain ⟨M, rfl⟩ : ∃ M, N = M + 1 := ⟨N - 1, by omega⟩
  obtain ⟨u, hu, hd⟩ := h.terminal 0 (y (M + 1))
  refine ⟨fun i => if i < M + 1 then y (i + 1) else P.stateEq 0 (y (M + 1)) u, fun i => if i < M then z (i + 1) else u, ⟨?_, ?_, ?_⟩, ?_⟩
  · rw [if_pos hN, hf.dyn 0 hN, hf.init, h.time.stateEq]
  · intro i hi
    rw [h.time.stateEq (timeAt 0 dt i), if_pos hi]
    by_cases hi' : i < M
    · rw [if_pos (by omega), if_pos hi', hf.dyn (i + 1) (by omega), h.time.stateEq (timeAt 0 dt (i + 1))]
    · have : i = M := by omega
      subst this
      rw [if_neg (by omega), if_neg hi']
  · intro i hi j
    rw [h.time.ineqConst, if_pos hi]
    by_cases hi' : i < M
    · rw [if_pos hi']
      have := hf.ineq (i + 1) (by omega) j
      rwa [h.time.ineqConst] at this
    · have : i = M := by omega
      subst this
      rw [if_neg hi']
      exact hu j
  · unfold trajCost
    simp only [h.time.runningCost, h.time.terminalCost (timeAt _ _ _)]
    rw [sum_range_succ, sum_range_succ', if_pos (Nat.lt_succ_self M), if_neg (lt_irrefl M), hf.init]
    have : ∑ i ∈ range M, dt * P.runningCost 0 (if i < M + 1 then y (i + 1) else P.stateEq 0 (y (M + 1)) u) (if i < M then z (i + 1) else u) =
        ∑ i ∈ range M, dt * P.runningCost 0 (y (i + 1)) (z (i + 1)) := by
      refine sum_congr rfl fun i hi => ?_
      have hi := mem_range.1 hi
      rw [if_pos (by omega), if_pos hi]
    rw [this, if_neg (lt_irrefl (M + 1))]
    linarith

/-- The trajectory is a Lipschitz function of the initial state. -/
theorem roll_init (hP : ConvexProblem P) (N : ℕ) : ∃ K, 0 ≤ K ∧ ∀ i ≤ N, ∀ (x x' : Vec n ℝ) (z : ℕ → Vec m ℝ),
    ‖rollOut P 0 dt x' z i - rollOut P 0 dt x z i‖ ≤ K * ‖x' - x‖ := by
  refine uniform_bound (Q := fun i K => ∀ (x x' : Vec n ℝ) (z : ℕ → Vec m ℝ),
    ‖rollOut P 0 dt x' z i - rollOut P 0 dt x z i‖ ≤ K * ‖x' - x‖)
    (fun i a b hab h x x' z => (h x x' z).trans (mul_le_mul_of_nonneg_right hab (norm_nonneg _))) (fun i => ?_) N
  induction i with
  | zero => exact ⟨1, zero_le_one, fun x x' z => by rw [one_mul]; rfl⟩
  | succ i ih =>
    obtain ⟨K, hK, hi⟩ := ih
    obtain ⟨A, B, hA⟩ := hP.affine (timeAt 0 dt i)
    obtain ⟨a, ha, haA⟩ := mulVec_norm_le A
    refine ⟨a * K, by positivity, fun x x' z => ?_⟩
    simp only [rollOut]
    rw [hA, sub_self, mulVec_zero, add_zero, mul_assoc]
    exact (haA _).trans (mul_le_mul_of_nonneg_left (hi x x' z) ha)

theorem Regulator.locLip (h : Regulator P dt R) : LocLip P 0 dt N :=
  LocLip.of_contDiff (fun _ _ => h.run_smooth _) (fun _ _ => h.ineq_smooth _) (h.term_smooth _)

theorem Regulator.nonneg (h : Regulator P dt R) : 0 ≤ R := by
  obtain ⟨u, hu, -⟩ := h.terminal 0 0
  exact (norm_nonneg u).trans (h.limited 0 0 u fun j => (hu j).trans zero_le_one)

/-- A feasible trajectory of nearly minimal cost and an input near its first one: the value decreases up to the tolerance. -/
theorem Regulator.decrease_near (h : Regulator P dt R) (hN : 0 < N) {r R1 : ℝ} (hr : 0 ≤ r) (hR1 : R ≤ R1) : ∃ C, 1 ≤ C ∧
    ∀ (x0 : Vec n ℝ) (u0 : Vec m ℝ) (y : ℕ → Vec n ℝ) (z : ℕ → Vec m ℝ) (ε ε' : ℝ), ‖x0‖ ≤ r → ‖u0‖ ≤ R1 → FeasibleTraj P 0 dt x0 N y z →
    trajCost P 0 dt N y z ≤ value P dt N x0 + ε → ‖z 0 - u0‖ ≤ ε' →
    value P dt N (P.stateEq 0 x0 u0) + dt * P.runningCost 0 x0 u0 ≤ value P dt N x0 + ε + C * ε' := by
  have hR := h.nonneg
  have hR1' := hR.trans hR1
  obtain ⟨ρ, hρ, hroll⟩ := roll_bounded_ball (P := P) (t0 := 0) (dt := dt) h.convex N hr hR1'
  obtain ⟨ρ', hρ', hroll'⟩ := roll_bounded_ball (P := P) (t0 := 0) (dt := dt) h.convex N hρ hR1'
  obtain ⟨K, hK, hlip⟩ := roll_init (dt := dt) h.convex N
  obtain ⟨Λ, hΛ, hl1, hl2⟩ := h.locLip (N := N) (ρ' + R1)
  obtain ⟨Λ', hΛ', hl3⟩ := Cgmres.OdeOrder.lip_ball (h.run_smooth 0) (r + R1)
  obtain ⟨A, B, hA⟩ := h.convex.affine 0
  obtain ⟨b, hb, hbB⟩ := mulVec_norm_le B
  have hdt := h.step
  refine ⟨1 + dt * Λ' + (N * dt + 1) * (Λ * (K * b)), ?_, ?_⟩
  · have h1 : 0 ≤ dt * Λ' := by positivity
    have h2 : 0 ≤ (N * dt + 1) * (Λ * (K * b)) := by positivity
    linarith
  intro x0 u0 y z ε ε' hx0 hu0 hf hcost hclose
  have hε' : 0 ≤ ε' := (norm_nonneg _).trans hclose
  have hz : ∀ i < N, ‖z i‖ ≤ R1 := fun i hi => (h.limited _ _ _ fun j => (hf.ineq i hi j).trans zero_le_one).trans hR1
  obtain ⟨y', z', hf', hc'⟩ := h.shift hN hf
  have hz' : ∀ i < N, ‖z' i‖ ≤ R1 := fun i hi => (h.limited _ _ _ fun j => (hf'.ineq i hi j).trans zero_le_one).trans hR1
  set xp := P.stateEq 0 x0 u0 with hxp
  set xz := P.stateEq 0 x0 (z 0) with hxz
  have hd : ‖xp - xz‖ ≤ b * ε' := by
    rw [hxp, hxz, hA, sub_self, mulVec_zero, zero_add]
    refine (hbB _).trans (mul_le_mul_of_nonneg_left ?_ hb)
    rwa [norm_sub_rev] at hclose
  have hxpr : ‖xp‖ ≤ ρ := by
    have := hroll 1 hN x0 (fun _ => u0) hx0 (fun _ _ => hu0)
    simp only [rollOut] at this
    rwa [h.time.stateEq] at this
  have hxzr : ‖xz‖ ≤ ρ := by
    have := hroll 1 hN x0 z hx0 hz
    simp only [rollOut] at this
    rwa [h.time.stateEq] at this
  have h2 : value P dt N xp ≤ trajCost P 0 dt N (rollOut P 0 dt xp z') z' := by
    refine h.value_le (h.feasible xp fun i hi j => ?_)
    have := hf'.ineq i hi j
    rwa [h.time.ineqConst, h.inputOnly 0 _ 0] at this
  have h3 := cost_close (P := P) (t0 := 0) (dt := dt) (N := N) (x := rollOut P 0 dt xz z') (y := rollOut P 0 dt xp z') (z := z')
    (e := K * (b * ε')) hdt.le hΛ (fun i hi x x' u a b c => (hl1 i hi x x' u a b c).1) hl2
    (fun i hi => (hroll' i hi xz z' hxzr hz').trans (by linarith)) (fun i hi => (hroll' i hi xp z' hxpr hz').trans (by linarith))
    (fun i hi => (hz' i hi).trans (by linarith)) (fun i hi => (hlip i hi xz xp z').trans (mul_le_mul_of_nonneg_left hd hK))
  rw [← trajCost_congr hf'.eq_rollOut] at h3
  have h3 := (abs_le.1 h3).2
  have h4 : P.runningCost 0 x0 u0 ≤ P.runningCost 0 x0 (z 0) + Λ' * ε' := by
    have a := hl3 (x0, z 0) (x0, u0) (by rw [Prod.norm_mk]; exact max_le (by linarith) ((hz 0 hN).trans (by linarith)))
      (by rw [Prod.norm_mk]; exact max_le (by linarith) (hu0.trans (by linarith)))
    rw [Prod.mk_sub_mk, sub_self, Prod.norm_mk, norm_zero, max_eq_right (norm_nonneg _), Real.norm_eq_abs, norm_sub_rev] at a
    have b := mul_le_mul_of_nonneg_left hclose hΛ'
    have c := (le_abs_self _).trans (a.trans b)
    dsimp only at c
    linarith
  have h5 := mul_le_mul_of_nonneg_left h4 hdt.le
  have h6 : (1 + dt * Λ' + (N * dt + 1) * (Λ * (K * b))) * ε' =
    ε' + dt * (Λ' * ε') + (N * dt + 1) * (Λ * (K * (b * ε'))) := by ring
  rw [h6]
  linarith

/-- Near-optimal inputs: the value decreases up to the tolerance. -/
theorem Regulator.decrease (h : Regulator P dt R) (hN : 0 < N) {r : ℝ} (hr : 0 ≤ r) {C : ℝ} (hC : 1 ≤ C) : ∃ C', C ≤ C' ∧ ∀ (x0 : Vec n ℝ) (tol : ℝ)
    (v : Var n (fun i => (fun _ : ℝ => m) (timeAt 0 dt i)) (fun i => (fun _ : ℝ => p) (timeAt 0 dt i)) ℝ), ‖x0‖ ≤ r → 0 ≤ tol →
    (∀ i < N, ‖v.u i‖ ≤ R) → NearOptimal P 0 dt x0 N R C tol v →
    value P dt N (P.stateEq 0 x0 (v.u 0)) + dt * P.runningCost 0 x0 (v.u 0) ≤ value P dt N x0 + C' * tol := by
  obtain ⟨C0, hC0, hd⟩ := h.decrease_near hN hr le_rfl
  refine ⟨C * (2 + C0), le_mul_of_one_le_right (by linarith) (by linarith), fun x0 tol v hx0 htol hu hno => ?_⟩
  obtain ⟨y, z, hf, hz, hcost, hclose⟩ := hno.lower
  have h1 : trajCost P 0 dt N v.x v.u - C * tol ≤ value P dt N x0 := by
    refine h.le_value fun y z hf => ?_
    have := hno.upper y z hf fun i hi => h.limited _ _ _ fun j => (hf.ineq i hi j).trans zero_le_one
    linarith
  have := hd x0 (v.u 0) y z (2 * (C * tol)) (C * tol) hx0 (hu 0 hN) hf (by linarith) (hclose 0 hN)
  linarith

end
end Nmpc.FMPC
