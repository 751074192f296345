import Verif.FMPC.CompactKkt
import Verif.FMPC.SlaterProps

/-!
# FMPC: what `Succeeded` means for problems that need not be convex (C147)

For problems with continuous dynamics and constraints whose inputs are bounded by the constraints, the threshold on the KKT error
can be chosen such that calls of `solve` that report `Succeeded` end near feasible trajectories (near exact KKT points, if the
multipliers stay bounded); in particular no call reports `Succeeded` on a problem without feasible trajectory.
-/

set_option linter.unusedSectionVars false

namespace Nmpc.FMPC

open DDP (FDeriv LDeriv VDeriv timeAt)
open Matrix Finset

section
variable {n : ℕ} {md pd : ℝ → ℕ} {P : Callbacks n md pd} {t0 dt : ℝ} {N : ℕ}

/-- **C147, feasible trajectories.**  For each `η > 0` there is a threshold such that every call with at most this threshold (any
gain solver, configuration, object state, scratch memory, initial guess with positive slacks and multipliers) that returns
`Succeeded` leaves states and inputs within `η` of a trajectory that starts in `x0` and satisfies dynamics and constraints exactly. -/
theorem C147_feasible (h : CompactInputs P t0 dt N) (x0 : Vec n ℝ) {η : ℝ} (hη : 0 < η) : ∃ ε, 0 < ε ∧
    ∀ (L : GainSolver ℝ) (cfg : Config ℝ) (o o' : Obj n ℝ)
      (sc : Scratch n (fun i => md (timeAt t0 dt i)) (fun i => pd (timeAt t0 dt i)) ℝ) (init : VarL n ℝ),
      cfg.horizon.toNat = N → (cfg.initComplementary = true ∨ init.Pos) → cfg.kktErrorThre ≤ ε →
      solve L P dt cfg o t0 sc x0 init = (o', .ok .succeeded) →
      ∃ (v : Var n (fun i => md (timeAt t0 dt i)) (fun i => pd (timeAt t0 dt i)) ℝ) (y : ℕ → Vec n ℝ) (z : (i : ℕ) → Vec (md (timeAt t0 dt i)) ℝ),
        o'.var = v.out N ∧ FeasibleTraj P t0 dt x0 N y z ∧ (∀ i ≤ N, ‖v.x i - y i‖ ≤ η) ∧ ∀ i < N, ‖v.u i - z i‖ ≤ η := by
  obtain ⟨ε, hε, hs⟩ := h.near x0 hη
  refine ⟨ε, hε, fun L cfg o o' sc init hN hp ht hsol => ?_⟩
  subst hN
  obtain ⟨v, dF, dG, dL, dV, hv, hD, hk⟩ := C29_kkt hsol
  have hpos := (C28_positive hp hsol).1
  rw [hv] at hpos
  obtain ⟨h1, -, h3⟩ := hk.each
  have hnear : NearFeasible P t0 dt x0 cfg.horizon.toNat cfg.kktErrorThre v.x v.u :=
    ⟨h1, fun i hi => (h3 i hi).1, fun i hi j => (h3 i hi).2.2.2.2.2 j ((out_pos_nu hpos).1 i hi j).le⟩
  obtain ⟨y, z, hf, hx, hu⟩ := hs _ _ (hnear.mono ht)
  exact ⟨v, y, z, hv, hf, hx, hu⟩

/-- **C147, infeasible problems.**  If no trajectory from `x0` satisfies dynamics and constraints, there is a positive threshold
such that no call with at most this threshold reports success. -/
theorem C147_infeasible (h : CompactInputs P t0 dt N) {x0 : Vec n ℝ} (hno : ¬ ∃ y z, FeasibleTraj P t0 dt x0 N y z) : ∃ ε, 0 < ε ∧
    ∀ (L : GainSolver ℝ) (cfg : Config ℝ) (o : Obj n ℝ)
      (sc : Scratch n (fun i => md (timeAt t0 dt i)) (fun i => pd (timeAt t0 dt i)) ℝ) (init : VarL n ℝ),
      cfg.horizon.toNat = N → (cfg.initComplementary = true ∨ init.Pos) → cfg.kktErrorThre ≤ ε →
      (solve L P dt cfg o t0 sc x0 init).2 ≠ .ok .succeeded := by
  obtain ⟨ε, hε, hs⟩ := C147_feasible h x0 one_pos
  refine ⟨ε, hε, fun L cfg o sc init hN hp ht hsol => hno ?_⟩
  obtain ⟨-, y, z, -, hf, -⟩ := hs L cfg o (solve L P dt cfg o t0 sc x0 init).1 sc init hN hp ht (Prod.ext rfl hsol)
  exact ⟨y, z, hf⟩

/-- **C147, KKT points.**  If moreover the derivative callbacks are continuous and overwrite their outputs, then for each `η > 0`
and each bound `B` there is a threshold such that every call with at most this threshold that returns `Succeeded` with multipliers
of the inequalities bounded by `B` leaves a point (states, inputs, costates, slacks, multipliers) within `η` of an exact KKT point:
all residuals of the KKT conditions are zero, slacks and multipliers are nonnegative. -/
theorem C147_kkt (h : CompactInputs P t0 dt N) (hc : ContinuousDerivs P t0 dt N) (hP : P.Overwrites) (x0 : Vec n ℝ) (B : ℝ) {η : ℝ}
    (hη : 0 < η) : ∃ ε, 0 < ε ∧
    ∀ (L : GainSolver ℝ) (cfg : Config ℝ) (o o' : Obj n ℝ)
      (sc : Scratch n (fun i => md (timeAt t0 dt i)) (fun i => pd (timeAt t0 dt i)) ℝ) (init : VarL n ℝ),
      cfg.horizon.toNat = N → (cfg.initComplementary = true ∨ init.Pos) → cfg.kktErrorThre ≤ ε →
      solve L P dt cfg o t0 sc x0 init = (o', .ok .succeeded) → (∀ e ∈ o'.var.nus, ∀ j, |e.2 j| ≤ B) →
      ∃ v w : Var n (fun i => md (timeAt t0 dt i)) (fun i => pd (timeAt t0 dt i)) ℝ, o'.var = v.out N ∧
        (∃ dF dG dL dV, DerivsAt P t0 dt N w dF dG dL dV ∧ KktWithin P t0 dt x0 N w dF dG dL dV 0) ∧
        (∀ i < N, ∀ j, 0 ≤ w.s i j ∧ 0 ≤ w.nu i j) ∧
        (∀ i ≤ N, ‖v.x i - w.x i‖ ≤ η ∧ ‖v.lam i - w.lam i‖ ≤ η) ∧
        ∀ i < N, ‖v.u i - w.u i‖ ≤ η ∧ ‖v.s i - w.s i‖ ≤ η ∧ ‖v.nu i - w.nu i‖ ≤ η := by
  obtain ⟨ε, hε, hs⟩ := h.near_kkt hc x0 (max B 0) hη
  refine ⟨ε, hε, fun L cfg o o' sc init hN hp ht hsol hB => ?_⟩
  subst hN
  obtain ⟨v, dF, dG, dL, dV, hv, hD, hk⟩ := C29_kkt hsol
  have hpos := (C28_positive hp hsol).1
  rw [hv] at hpos hB
  obtain ⟨w, hw, h1, h2⟩ := hs v ((hk.nearKkt hP hD (out_pos_nu hpos)).mono ht) fun i hi =>
    (pi_norm_le_iff_of_nonneg (le_max_right _ _)).2 fun j =>
      (hB ⟨_, v.nu i⟩ (List.mem_map.2 ⟨i, List.mem_range.2 hi, rfl⟩) j).trans (le_max_left _ _)
  exact ⟨v, w, hv, hw.exact, fun i hi j => ⟨hw.slack i hi j, hw.mult i hi j⟩, h1, h2⟩

/-- **C147, convex problems.**  For convex problems with a strictly feasible trajectory no bound on the multipliers is needed: for each
`η > 0` there is a threshold such that every call with at most this threshold that returns `Succeeded` leaves states, inputs, costates,
slacks and multipliers within `η` of an exact KKT point, whose states and inputs are an optimal trajectory (it need not be unique). -/
theorem C147_convex (h : CompactInputs P t0 dt N) (hc : ContinuousDerivs P t0 dt N) (hO : P.Overwrites) (hP : ConvexProblem P) (hdt : 0 ≤ dt)
    (hLip : LocLip P t0 dt N) (x0 : Vec n ℝ) {a : (i : ℕ) → Vec (md (timeAt t0 dt i)) ℝ} {σ : ℝ} (hσ : 0 < σ)
    (ha : ∀ i < N, ∀ j, P.ineqConst (timeAt t0 dt i) (rollOut P t0 dt x0 a i) (a i) j ≤ -σ) {η : ℝ} (hη : 0 < η) : ∃ ε, 0 < ε ∧
    ∀ (L : GainSolver ℝ) (cfg : Config ℝ) (o o' : Obj n ℝ)
      (sc : Scratch n (fun i => md (timeAt t0 dt i)) (fun i => pd (timeAt t0 dt i)) ℝ) (init : VarL n ℝ),
      cfg.horizon.toNat = N → (cfg.initComplementary = true ∨ init.Pos) → cfg.kktErrorThre ≤ ε →
      solve L P dt cfg o t0 sc x0 init = (o', .ok .succeeded) →
      ∃ v w : Var n (fun i => md (timeAt t0 dt i)) (fun i => pd (timeAt t0 dt i)) ℝ, o'.var = v.out N ∧
        (∃ dF dG dL dV, DerivsAt P t0 dt N w dF dG dL dV ∧ KktWithin P t0 dt x0 N w dF dG dL dV 0) ∧
        (∀ i < N, ∀ j, 0 ≤ w.s i j ∧ 0 ≤ w.nu i j) ∧
        (FeasibleTraj P t0 dt x0 N w.x w.u ∧ ∀ y z, FeasibleTraj P t0 dt x0 N y z → trajCost P t0 dt N w.x w.u ≤ trajCost P t0 dt N y z) ∧
        (∀ i ≤ N, ‖v.x i - w.x i‖ ≤ η ∧ ‖v.lam i - w.lam i‖ ≤ η) ∧
        ∀ i < N, ‖v.u i - w.u i‖ ≤ η ∧ ‖v.s i - w.s i‖ ≤ η ∧ ‖v.nu i - w.nu i‖ ≤ η := by
  obtain ⟨B, hB⟩ := h.bounds x0
  have hA : ∀ i < N, ‖a i‖ ≤ ∑ i ∈ range N, ‖a i‖ := fun i hi =>
    single_le_sum (f := fun i => ‖a i‖) (fun _ _ => norm_nonneg _) (mem_range.2 hi)
  have hA0 : 0 ≤ ∑ i ∈ range N, ‖a i‖ := sum_nonneg fun _ _ => norm_nonneg _
  obtain ⟨C, hC, hs⟩ := kkt_slater (x0 := x0) hP hdt hLip hσ ha (R := max B (∑ i ∈ range N, ‖a i‖)) (hA0.trans (le_max_right _ _))
    fun i hi => (hA i hi).trans (le_max_right _ _)
  obtain ⟨ε, hε, hk0⟩ := h.near_kkt hc x0 C hη
  have hC0 : 0 < C := by linarith
  refine ⟨min ε (1 / C), lt_min hε (by positivity), fun L cfg o o' sc init hN hp ht hsol => ?_⟩
  subst hN
  obtain ⟨v, dF, dG, dL, dV, hv, hD, hk⟩ := C29_kkt hsol
  have hpos := (C28_positive hp hsol).1
  rw [hv] at hpos
  have hpos' := out_pos_nu hpos
  have hCt : C * cfg.kktErrorThre ≤ 1 := by
    have := mul_le_mul_of_nonneg_left (ht.trans (min_le_right _ _)) hC0.le
    rwa [mul_one_div_cancel hC0.ne'] at this
  have ht1 : cfg.kktErrorThre ≤ 1 := by
    refine (ht.trans (min_le_right _ _)).trans ?_
    rw [div_le_one hC0]
    exact hC
  have hn := hk.nearKkt hO hD hpos'
  have hu := (hB _ _ (hn.mono ht1).feasible).2
  have hopt := hs v dF dG dL dV _ hD hk hpos' hCt fun i hi => (hu i hi).trans (le_max_left _ _)
  obtain ⟨w, hw, h1, h2⟩ := hk0 v (hn.mono (ht.trans (min_le_left _ _))) fun i hi => by
    refine (pi_norm_le_iff_of_nonneg hC0.le).2 fun j => ?_
    have e1 : |v.nu i j| ≤ l1 (v.nu i) := single_le_sum (f := fun j => |v.nu i j|) (fun _ _ => abs_nonneg _) (mem_univ j)
    have e2 : l1 (v.nu i) ≤ ∑ i ∈ range cfg.horizon.toNat, l1 (v.nu i) :=
      single_le_sum (f := fun i => l1 (v.nu i)) (fun _ _ => l1_nonneg _) (mem_range.2 hi)
    exact e1.trans (e2.trans hopt.mult)
  obtain ⟨eF, eG, eL, eV, hwD, hwK⟩ := hw.exact
  refine ⟨v, w, hv, ⟨eF, eG, eL, eV, hwD, hwK⟩, fun i hi j => ⟨hw.slack i hi j, hw.mult i hi j⟩, ⟨?_, fun y z hy => ?_⟩, h1, h2⟩
  · have hf := hw.feasible
    refine ⟨?_, fun i hi => ?_, hf.ineq⟩
    · funext j
      have := abs_nonpos_iff.1 (hf.init j)
      linarith
    · funext j
      have := abs_nonpos_iff.1 (hf.dyn i hi j)
      linarith
  · have := kkt_gap hP hdt hwD hwK hw.mult hy
    rwa [zero_mul, add_zero] at this

end

end Nmpc.FMPC
