import Verif.FMPC.Compact
import Verif.FMPC.Congr
import Mathlib.Topology.Instances.Matrix

/-!
# FMPC: limits of approximate KKT points (helpers for C147)
-/

set_option linter.unusedSectionVars false

namespace Nmpc.FMPC

open DDP (FDeriv LDeriv VDeriv timeAt)
open Matrix Finset Filter Topology

section
variable {n : ℕ} {md pd : ℝ → ℕ} {P : Callbacks n md pd} {t0 dt : ℝ} {x0 : Vec n ℝ} {N : ℕ}

/-- The first derivatives written by the callbacks depend continuously on state and input. -/
structure ContinuousDerivs (P : Callbacks n md pd) (t0 dt : ℝ) (N : ℕ) : Prop where
  Fx : ∀ i < N, ∀ b, Continuous fun q : Vec n ℝ × Vec (md (timeAt t0 dt i)) ℝ => (P.stateEqDeriv (timeAt t0 dt i) q.1 q.2 b).Fx
  Fu : ∀ i < N, ∀ b, Continuous fun q : Vec n ℝ × Vec (md (timeAt t0 dt i)) ℝ => (P.stateEqDeriv (timeAt t0 dt i) q.1 q.2 b).Fu
  C : ∀ i < N, ∀ b, Continuous fun q : Vec n ℝ × Vec (md (timeAt t0 dt i)) ℝ => (P.ineqConstDeriv (timeAt t0 dt i) q.1 q.2 b).C
  D : ∀ i < N, ∀ b, Continuous fun q : Vec n ℝ × Vec (md (timeAt t0 dt i)) ℝ => (P.ineqConstDeriv (timeAt t0 dt i) q.1 q.2 b).D
  Lx : ∀ i < N, ∀ b, Continuous fun q : Vec n ℝ × Vec (md (timeAt t0 dt i)) ℝ => (P.runningCostDeriv (timeAt t0 dt i) q.1 q.2 b).Lx
  Lu : ∀ i < N, ∀ b, Continuous fun q : Vec n ℝ × Vec (md (timeAt t0 dt i)) ℝ => (P.runningCostDeriv (timeAt t0 dt i) q.1 q.2 b).Lu
  Vx : ∀ b, Continuous fun x : Vec n ℝ => (P.terminalCostDeriv (timeAt t0 dt N) x b).Vx

/-- A point of one stage: state, input, next costate, multipliers of the inequalities. -/
abbrev StagePt (n m p : ℕ) := (Vec n ℝ × Vec m ℝ) × Vec n ℝ × Vec p ℝ

/-- Gradient of the Hamiltonian with respect to the state, as in `Lxbar` without the costate of the stage. -/
noncomputable def hamX (P : Callbacks n md pd) (t0 dt : ℝ) (i : ℕ)
    (q : StagePt n (md (timeAt t0 dt i)) (pd (timeAt t0 dt i))) : Vec n ℝ := fun j =>
  dt * (P.runningCostDeriv (timeAt t0 dt i) q.1.1 q.1.2 ⟨0, 0, 0, 0, 0⟩).Lx j +
    (∑ r, (P.stateEqDeriv (timeAt t0 dt i) q.1.1 q.1.2 ⟨0, 0⟩).Fx r j * q.2.1 r) +
    ∑ r, (P.ineqConstDeriv (timeAt t0 dt i) q.1.1 q.1.2 ⟨0, 0⟩).C r j * q.2.2 r

/-- Gradient of the Hamiltonian with respect to the input (`Lubar`). -/
noncomputable def hamU (P : Callbacks n md pd) (t0 dt : ℝ) (i : ℕ)
    (q : StagePt n (md (timeAt t0 dt i)) (pd (timeAt t0 dt i))) : Vec (md (timeAt t0 dt i)) ℝ := fun j =>
  dt * (P.runningCostDeriv (timeAt t0 dt i) q.1.1 q.1.2 ⟨0, 0, 0, 0, 0⟩).Lu j +
    (∑ r, (P.stateEqDeriv (timeAt t0 dt i) q.1.1 q.1.2 ⟨0, 0⟩).Fu r j * q.2.1 r) +
    ∑ r, (P.ineqConstDeriv (timeAt t0 dt i) q.1.1 q.1.2 ⟨0, 0⟩).D r j * q.2.2 r

theorem ContinuousDerivs.hamX (h : ContinuousDerivs P t0 dt N) {i : ℕ} (hi : i < N) : Continuous (hamX P t0 dt i) := by
  refine continuous_pi fun j => ?_
  have h1 := (h.Lx i hi ⟨0, 0, 0, 0, 0⟩).comp (continuous_fst (X := Vec n ℝ × Vec (md (timeAt t0 dt i)) ℝ) (Y := Vec n ℝ × Vec (pd (timeAt t0 dt i)) ℝ))
  have h2 := (h.Fx i hi ⟨0, 0⟩).comp (continuous_fst (X := Vec n ℝ × Vec (md (timeAt t0 dt i)) ℝ) (Y := Vec n ℝ × Vec (pd (timeAt t0 dt i)) ℝ))
  have h3 := (h.C i hi ⟨0, 0⟩).comp (continuous_fst (X := Vec n ℝ × Vec (md (timeAt t0 dt i)) ℝ) (Y := Vec n ℝ × Vec (pd (timeAt t0 dt i)) ℝ))
  refine ((continuous_const.mul ((continuous_apply j).comp h1)).add (continuous_finsetSum _ fun r _ => ?_)).add
    (continuous_finsetSum _ fun r _ => ?_)
  · exact (h2.matrix_elem r j).mul ((continuous_apply r).comp (continuous_fst.comp continuous_snd))
  · exact (h3.matrix_elem r j).mul ((continuous_apply r).comp (continuous_snd.comp continuous_snd))

theorem ContinuousDerivs.hamU (h : ContinuousDerivs P t0 dt N) {i : ℕ} (hi : i < N) : Continuous (hamU P t0 dt i) := by
  refine continuous_pi fun j => ?_
  have h1 := (h.Lu i hi ⟨0, 0, 0, 0, 0⟩).comp (continuous_fst (X := Vec n ℝ × Vec (md (timeAt t0 dt i)) ℝ) (Y := Vec n ℝ × Vec (pd (timeAt t0 dt i)) ℝ))
  have h2 := (h.Fu i hi ⟨0, 0⟩).comp (continuous_fst (X := Vec n ℝ × Vec (md (timeAt t0 dt i)) ℝ) (Y := Vec n ℝ × Vec (pd (timeAt t0 dt i)) ℝ))
  have h3 := (h.D i hi ⟨0, 0⟩).comp (continuous_fst (X := Vec n ℝ × Vec (md (timeAt t0 dt i)) ℝ) (Y := Vec n ℝ × Vec (pd (timeAt t0 dt i)) ℝ))
  refine ((continuous_const.mul ((continuous_apply j).comp h1)).add (continuous_finsetSum _ fun r _ => ?_)).add
    (continuous_finsetSum _ fun r _ => ?_)
  · exact (h2.matrix_elem r j).mul ((continuous_apply r).comp (continuous_fst.comp continuous_snd))
  · exact (h3.matrix_elem r j).mul ((continuous_apply r).comp (continuous_snd.comp continuous_snd))

/-- The KKT conditions up to `tol` per component, with the derivatives written into zeroed outputs. -/
structure NearKkt (P : Callbacks n md pd) (t0 dt : ℝ) (x0 : Vec n ℝ) (N : ℕ) (tol : ℝ)
    (v : Var n (fun i => md (timeAt t0 dt i)) (fun i => pd (timeAt t0 dt i)) ℝ) : Prop where
  init : ∀ j, |x0 j - v.x 0 j| ≤ tol
  dyn : ∀ i < N, ∀ j, |P.stateEq (timeAt t0 dt i) (v.x i) (v.u i) j - v.x (i + 1) j| ≤ tol
  ineq : ∀ i < N, ∀ j, |P.ineqConst (timeAt t0 dt i) (v.x i) (v.u i) j + v.s i j| ≤ tol
  term : ∀ j, |(P.terminalCostDeriv (timeAt t0 dt N) (v.x N) ⟨0, 0⟩).Vx j - v.lam N j| ≤ tol
  statX : ∀ i < N, ∀ j, |hamX P t0 dt i ((v.x i, v.u i), v.lam (i + 1), v.nu i) j - v.lam i j| ≤ tol
  statU : ∀ i < N, ∀ j, |hamU P t0 dt i ((v.x i, v.u i), v.lam (i + 1), v.nu i) j| ≤ tol
  compl : ∀ i < N, ∀ j, v.s i j * v.nu i j ≤ tol
  slack : ∀ i < N, ∀ j, 0 ≤ v.s i j
  mult : ∀ i < N, ∀ j, 0 ≤ v.nu i j

theorem KktWithin.nearKkt (hP : P.Overwrites) {v : Var n (fun i => md (timeAt t0 dt i)) (fun i => pd (timeAt t0 dt i)) ℝ}
    {dF : (i : ℕ) → FDeriv n (md (timeAt t0 dt i)) ℝ}
    {dG : (i : ℕ) → GDeriv n (md (timeAt t0 dt i)) (pd (timeAt t0 dt i)) ℝ}
    {dL : (i : ℕ) → LDeriv n (md (timeAt t0 dt i)) ℝ} {dV : VDeriv n ℝ} {tol : ℝ} (hD : DerivsAt P t0 dt N v dF dG dL dV)
    (h : KktWithin P t0 dt x0 N v dF dG dL dV tol) (hpos : v.Pos N) : NearKkt P t0 dt x0 N tol v := by
  obtain ⟨h1, h2, h3⟩ := h.each
  have hV : dV = P.terminalCostDeriv (timeAt t0 dt N) (v.x N) ⟨0, 0⟩ := by
    obtain ⟨b, hb⟩ := hD.2
    rw [hb, hP.terminalCostDeriv]
  have hF : ∀ i < N, dF i = P.stateEqDeriv (timeAt t0 dt i) (v.x i) (v.u i) ⟨0, 0⟩ := fun i hi => by
    obtain ⟨b, hb⟩ := (hD.1 i hi).1
    rw [hb, hP.stateEqDeriv]
  have hG : ∀ i < N, dG i = P.ineqConstDeriv (timeAt t0 dt i) (v.x i) (v.u i) ⟨0, 0⟩ := fun i hi => by
    obtain ⟨b, hb⟩ := (hD.1 i hi).2.1
    rw [hb, hP.ineqConstDeriv]
  have hL : ∀ i < N, dL i = P.runningCostDeriv (timeAt t0 dt i) (v.x i) (v.u i) ⟨0, 0, 0, 0, 0⟩ := fun i hi => by
    obtain ⟨b, hb⟩ := (hD.1 i hi).2.2
    rw [hb, hP.runningCostDeriv]
  refine ⟨h1, fun i hi => (h3 i hi).1, fun i hi => (h3 i hi).2.1, fun j => hV ▸ h2 j, fun i hi j => ?_, fun i hi j => ?_,
    fun i hi => (h3 i hi).2.2.2.2.1, fun i hi j => (hpos.1 i hi j).le, fun i hi j => (hpos.2 i hi j).le⟩
  · have := (h3 i hi).2.2.1 j
    rw [hF i hi, hG i hi, hL i hi] at this
    refine le_of_eq_of_le ?_ this
    congr 1
    simp only [FMPC.hamX]
    ring
  · have := (h3 i hi).2.2.2.1 j
    rw [hF i hi, hG i hi, hL i hi] at this
    exact this

/-- With tolerance zero the KKT conditions hold exactly. -/
theorem NearKkt.exact {v : Var n (fun i => md (timeAt t0 dt i)) (fun i => pd (timeAt t0 dt i)) ℝ} (h : NearKkt P t0 dt x0 N 0 v) :
    ∃ dF dG dL dV, DerivsAt P t0 dt N v dF dG dL dV ∧ KktWithin P t0 dt x0 N v dF dG dL dV 0 := by
  refine ⟨fun i => P.stateEqDeriv (timeAt t0 dt i) (v.x i) (v.u i) ⟨0, 0⟩, fun i => P.ineqConstDeriv (timeAt t0 dt i) (v.x i) (v.u i) ⟨0, 0⟩,
    fun i => P.runningCostDeriv (timeAt t0 dt i) (v.x i) (v.u i) ⟨0, 0, 0, 0, 0⟩, P.terminalCostDeriv (timeAt t0 dt N) (v.x N) ⟨0, 0⟩,
    ⟨fun i hi => ⟨⟨_, rfl⟩, ⟨_, rfl⟩, ⟨_, rfl⟩⟩, ⟨_, rfl⟩⟩, ?_⟩
  have hz : ∀ {a : ℝ}, |a| ≤ 0 → a = 0 := fun ha => abs_eq_zero.1 (le_antisymm ha (abs_nonneg _))
  unfold KktWithin
  have hst : ∀ i ∈ range N, stageResidual P (timeAt t0 dt i) dt (v.x i) (v.x (i + 1)) (v.u i) (v.lam i) (v.lam (i + 1)) (v.s i)
      (v.nu i) (P.stateEqDeriv (timeAt t0 dt i) (v.x i) (v.u i) ⟨0, 0⟩) (P.ineqConstDeriv (timeAt t0 dt i) (v.x i) (v.u i) ⟨0, 0⟩)
      (P.runningCostDeriv (timeAt t0 dt i) (v.x i) (v.u i) ⟨0, 0, 0, 0, 0⟩) = 0 := by
    intro i hi
    have hi := mem_range.1 hi
    have e1 : ∀ j, P.stateEq (timeAt t0 dt i) (v.x i) (v.u i) j - v.x (i + 1) j = 0 := fun j => hz (h.dyn i hi j)
    have e2 : ∀ j, P.ineqConst (timeAt t0 dt i) (v.x i) (v.u i) j + v.s i j = 0 := fun j => hz (h.ineq i hi j)
    have e3 := fun j => hz (h.statX i hi j)
    have e4 := fun j => hz (h.statU i hi j)
    have e5 : ∀ j, max (v.s i j * v.nu i j) 0 = 0 := fun j => max_eq_right (h.compl i hi j)
    unfold stageResidual
    rw [sum_eq_zero fun j _ => by rw [e1 j]; ring, sum_eq_zero fun j _ => by rw [e2 j]; ring,
      sum_eq_zero (f := fun j => (- v.lam i j + dt * _ + _ + _) ^ 2) fun j _ => by
        have := e3 j
        simp only [FMPC.hamX] at this
        rw [sq_eq_zero_iff]
        linarith,
      sum_eq_zero (f := fun j => (dt * _ + _ + _) ^ 2) fun j _ => by
        have := e4 j
        simp only [FMPC.hamU] at this
        rw [sq_eq_zero_iff]
        linarith, sum_eq_zero fun j _ => by rw [e5 j]; ring]
    ring
  rw [sum_eq_zero hst, sum_eq_zero fun j _ => by rw [hz (h.init j)]; ring, sum_eq_zero fun j _ => by rw [hz (h.term j)]; ring]
  simp

theorem NearKkt.mono {tol tol' : ℝ} {v : Var n (fun i => md (timeAt t0 dt i)) (fun i => pd (timeAt t0 dt i)) ℝ}
    (h : NearKkt P t0 dt x0 N tol v) (ht : tol ≤ tol') : NearKkt P t0 dt x0 N tol' v :=
  ⟨fun j => (h.init j).trans ht, fun i hi j => (h.dyn i hi j).trans ht, fun i hi j => (h.ineq i hi j).trans ht, fun j => (h.term j).trans ht,
    fun i hi j => (h.statX i hi j).trans ht, fun i hi j => (h.statU i hi j).trans ht, fun i hi j => (h.compl i hi j).trans ht, h.slack, h.mult⟩

theorem NearKkt.feasible {tol : ℝ} {v : Var n (fun i => md (timeAt t0 dt i)) (fun i => pd (timeAt t0 dt i)) ℝ}
    (h : NearKkt P t0 dt x0 N tol v) : NearFeasible P t0 dt x0 N tol v.x v.u :=
  ⟨h.init, h.dyn, fun i hi j => by
    have h1 := (abs_le.1 (h.ineq i hi j)).2
    have h2 := h.slack i hi j
    linarith⟩

/-- Approximate KKT points whose multipliers of the inequalities are bounded are bounded. -/
theorem CompactInputs.kkt_bounds (h : CompactInputs P t0 dt N) (hc : ContinuousDerivs P t0 dt N) (x0 : Vec n ℝ) (B : ℝ) : ∃ B' : ℝ,
    ∀ v : Var n (fun i => md (timeAt t0 dt i)) (fun i => pd (timeAt t0 dt i)) ℝ, NearKkt P t0 dt x0 N 1 v → (∀ i < N, ‖v.nu i‖ ≤ B) →
    (∀ i ≤ N, ‖v.x i‖ ≤ B') ∧ (∀ i < N, ‖v.u i‖ ≤ B') ∧ (∀ i ≤ N, ‖v.lam i‖ ≤ B') ∧ (∀ i < N, ‖v.s i‖ ≤ B') ∧ ∀ i < N, ‖v.nu i‖ ≤ B' := by
  obtain ⟨B1, hB1⟩ := h.bounds x0
  obtain ⟨M, hM0, hM⟩ := Cgmres.OdeOrder.bounded_on_ball (hc.Vx ⟨0, 0⟩) B1
  -- costates, backwards
  have hl : ∀ k ≤ N, ∃ B2 : ℝ, ∀ v : Var n (fun i => md (timeAt t0 dt i)) (fun i => pd (timeAt t0 dt i)) ℝ, NearKkt P t0 dt x0 N 1 v →
      (∀ i < N, ‖v.nu i‖ ≤ B) → ∀ i ≤ N, N - k ≤ i → ‖v.lam i‖ ≤ B2 := by
    intro k
    induction k with
    | zero =>
      refine fun _ => ⟨M + 1, fun v hv _ i hi hki => ?_⟩
      obtain rfl : i = N := by omega
      exact (vec_le zero_le_one hv.term).trans (by linarith [hM _ ((hB1 _ _ hv.feasible).1 i le_rfl)])
    | succ k ih =>
      intro hk
      obtain ⟨B2, hB2⟩ := ih (by omega)
      obtain ⟨K, -, hK⟩ := Cgmres.OdeOrder.bounded_on_ball (hc.hamX (i := N - (k + 1)) (by omega)) (max (max B1 B1) (max B2 B))
      refine ⟨max B2 (K + 1), fun v hv hnu i hi hki => ?_⟩
      rcases Nat.lt_or_ge i (N - k) with hik | hik
      · obtain rfl : i = N - (k + 1) := by omega
        obtain ⟨b1, b2⟩ := hB1 _ _ hv.feasible
        have h4 := hK ((v.x (N - (k + 1)), v.u (N - (k + 1))), v.lam (N - (k + 1) + 1), v.nu (N - (k + 1))) (by
          rw [Prod.norm_mk, Prod.norm_mk, Prod.norm_mk]
          exact max_le_max (max_le_max (b1 _ hi) (b2 _ (by omega))) (max_le_max (hB2 v hv hnu _ (by omega) (by omega)) (hnu _ (by omega))))
        exact ((vec_le zero_le_one (hv.statX _ (by omega))).trans (by linarith)).trans (le_max_right _ _)
      · exact (hB2 v hv hnu i hi hik).trans (le_max_left _ _)
  obtain ⟨B2, hB2⟩ := hl N le_rfl
  have hs : ∀ k ≤ N, ∃ B3 : ℝ, ∀ v : Var n (fun i => md (timeAt t0 dt i)) (fun i => pd (timeAt t0 dt i)) ℝ, NearKkt P t0 dt x0 N 1 v →
      ∀ i < k, ‖v.s i‖ ≤ B3 := by
    intro k
    induction k with
    | zero => exact fun _ => ⟨0, fun v _ i hi => absurd hi (Nat.not_lt_zero _)⟩
    | succ k ih =>
      intro hk
      obtain ⟨B3, hB3⟩ := ih (by omega)
      obtain ⟨K, -, hK⟩ := Cgmres.OdeOrder.bounded_on_ball (h.ineq k (by omega)) (max B1 B1)
      refine ⟨max B3 (K + 1), fun v hv i hi => ?_⟩
      rcases Nat.lt_or_ge i k with hik | hik
      · exact (hB3 v hv i hik).trans (le_max_left _ _)
      · obtain rfl : i = k := by omega
        obtain ⟨b1, b2⟩ := hB1 _ _ hv.feasible
        have h4 := hK (v.x i, v.u i) (by
          rw [Prod.norm_mk]
          exact max_le_max (b1 _ (by omega)) (b2 _ hk))
        have h5 : ‖v.s i‖ ≤ ‖-P.ineqConst (timeAt t0 dt i) (v.x i) (v.u i)‖ + 1 := vec_le zero_le_one fun j => by
          have := hv.ineq i hk j
          rw [← abs_neg] at this
          refine le_of_eq_of_le ?_ this
          congr 1
          simp only [Pi.neg_apply]
          ring
        rw [norm_neg] at h5
        exact (h5.trans (by linarith)).trans (le_max_right _ _)
  obtain ⟨B3, hB3⟩ := hs N le_rfl
  refine ⟨max (max B1 B2) (max B3 B), fun v hv hnu => ⟨fun i hi => ?_, fun i hi => ?_, fun i hi => ?_, fun i hi => ?_, fun i hi => ?_⟩⟩
  · exact ((hB1 _ _ hv.feasible).1 i hi).trans ((le_max_left _ _).trans (le_max_left _ _))
  · exact ((hB1 _ _ hv.feasible).2 i hi).trans ((le_max_left _ _).trans (le_max_left _ _))
  · exact (hB2 v hv hnu i hi (by omega)).trans ((le_max_right _ _).trans (le_max_left _ _))
  · exact (hB3 v hv i hi).trans ((le_max_left _ _).trans (le_max_right _ _))
  · exact (hnu i hi).trans ((le_max_right _ _).trans (le_max_right _ _))

/-- **Approximate KKT points are near exact ones**, uniformly as long as the multipliers of the inequalities stay bounded. -/
theorem CompactInputs.near_kkt (h : CompactInputs P t0 dt N) (hc : ContinuousDerivs P t0 dt N) (x0 : Vec n ℝ) (B : ℝ) {η : ℝ} (hη : 0 < η) :
    ∃ ε, 0 < ε ∧ ∀ v : Var n (fun i => md (timeAt t0 dt i)) (fun i => pd (timeAt t0 dt i)) ℝ, NearKkt P t0 dt x0 N ε v →
    (∀ i < N, ‖v.nu i‖ ≤ B) → ∃ w, NearKkt P t0 dt x0 N 0 w ∧ (∀ i ≤ N, ‖v.x i - w.x i‖ ≤ η ∧ ‖v.lam i - w.lam i‖ ≤ η) ∧
      ∀ i < N, ‖v.u i - w.u i‖ ≤ η ∧ ‖v.s i - w.s i‖ ≤ η ∧ ‖v.nu i - w.nu i‖ ≤ η := by
  by_contra hno
  push Not at hno
  obtain ⟨B', hB'⟩ := h.kkt_bounds hc x0 B
  have hpos : ∀ k : ℕ, (0 : ℝ) < 1 / ((k : ℝ) + 1) := fun k => by positivity
  choose v hv hnu hfar using fun k : ℕ => hno _ (hpos k)
  have hle1 : ∀ k : ℕ, 1 / ((k : ℝ) + 1) ≤ 1 := fun k => by
    rw [div_le_one (by positivity)]
    have : (0 : ℝ) ≤ k := Nat.cast_nonneg k
    linarith
  have hb := fun k => hB' (v k) ((hv k).mono (hle1 k)) (hnu k)
  have hB0 : 0 ≤ B' := (norm_nonneg _).trans ((hb 0).1 0 (Nat.zero_le _))
  set f : ℕ → (i : ℕ) → Vec n ℝ × Vec (md (timeAt t0 dt i)) ℝ × Vec n ℝ × Vec (pd (timeAt t0 dt i)) ℝ × Vec (pd (timeAt t0 dt i)) ℝ :=
    fun k i => (if i ≤ N then (v k).x i else 0, if i < N then (v k).u i else 0, if i ≤ N then (v k).lam i else 0,
      if i < N then (v k).s i else 0, if i < N then (v k).nu i else 0) with hf
  obtain ⟨a, φ, hφ, ha⟩ := subseq_pi (B := fun _ => B') (f := f) (by
    intro k i
    rw [hf, Prod.norm_mk, Prod.norm_mk, Prod.norm_mk, Prod.norm_mk]
    obtain ⟨c1, c2, c3, c4, c5⟩ := hb k
    refine max_le ?_ (max_le ?_ (max_le ?_ (max_le ?_ ?_)))
    · split
      · exact c1 i ‹_›
      · simpa using hB0
    · split
      · exact c2 i ‹_›
      · simpa using hB0
    · split
      · exact c3 i ‹_›
      · simpa using hB0
    · split
      · exact c4 i ‹_›
      · simpa using hB0
    · split
      · exact c5 i ‹_›
      · simpa using hB0)
  set w : Var n (fun i => md (timeAt t0 dt i)) (fun i => pd (timeAt t0 dt i)) ℝ :=
    ⟨fun i => (a i).1, fun i => (a i).2.1, fun i => (a i).2.2.1, fun i => (a i).2.2.2.1, fun i => (a i).2.2.2.2⟩ with hw
  have hx : ∀ i ≤ N, Tendsto (fun k => (v (φ k)).x i) atTop (𝓝 (w.x i)) := by
    intro i hi
    have := ((continuous_fst.tendsto _).comp (ha i))
    simpa only [Function.comp_def, hf, if_pos hi] using this
  have hu : ∀ i < N, Tendsto (fun k => (v (φ k)).u i) atTop (𝓝 (w.u i)) := by
    intro i hi
    have := (((continuous_fst.comp continuous_snd).tendsto _).comp (ha i))
    simpa only [Function.comp_def, hf, if_pos hi] using this
  have hlam : ∀ i ≤ N, Tendsto (fun k => (v (φ k)).lam i) atTop (𝓝 (w.lam i)) := by
    intro i hi
    have := (((continuous_fst.comp (continuous_snd.comp continuous_snd)).tendsto _).comp (ha i))
    simpa only [Function.comp_def, hf, if_pos hi] using this
  have hs : ∀ i < N, Tendsto (fun k => (v (φ k)).s i) atTop (𝓝 (w.s i)) := by
    intro i hi
    have := (((continuous_fst.comp (continuous_snd.comp (continuous_snd.comp continuous_snd))).tendsto _).comp (ha i))
    simpa only [Function.comp_def, hf, if_pos hi] using this
  have hn : ∀ i < N, Tendsto (fun k => (v (φ k)).nu i) atTop (𝓝 (w.nu i)) := by
    intro i hi
    have := (((continuous_snd.comp (continuous_snd.comp (continuous_snd.comp continuous_snd))).tendsto _).comp (ha i))
    simpa only [Function.comp_def, hf, if_pos hi] using this
  have htol := tol_tendsto hφ
  have hlim : ∀ {k : ℕ} {g : ℕ → Vec k ℝ} {c : Vec k ℝ}, Tendsto g atTop (𝓝 c) → ∀ j, Tendsto (fun l => g l j) atTop (𝓝 (c j)) :=
    fun h j => (tendsto_pi_nhds.1 h) j
  have hzero : ∀ {g : ℕ → ℝ} {c : ℝ}, Tendsto g atTop (𝓝 c) → (∀ l, |g l| ≤ 1 / ((φ l : ℝ) + 1)) → |c| ≤ 0 :=
    fun hg hl => le_of_tendsto_of_tendsto' hg.abs htol hl
  have hxu : ∀ i < N, Tendsto (fun k => ((v (φ k)).x i, (v (φ k)).u i)) atTop (𝓝 (w.x i, w.u i)) := fun i hi =>
    (hx i hi.le).prodMk_nhds (hu i hi)
  have hst : ∀ i < N, Tendsto (fun k => (((v (φ k)).x i, (v (φ k)).u i), (v (φ k)).lam (i + 1), (v (φ k)).nu i)) atTop
      (𝓝 ((w.x i, w.u i), w.lam (i + 1), w.nu i)) := fun i hi =>
    (hxu i hi).prodMk_nhds ((hlam (i + 1) hi).prodMk_nhds (hn i hi))
  have hwK : NearKkt P t0 dt x0 N 0 w := by
    refine ⟨fun j => ?_, fun i hi j => ?_, fun i hi j => ?_, fun j => ?_, fun i hi j => ?_, fun i hi j => ?_, fun i hi j => ?_,
      fun i hi j => ?_, fun i hi j => ?_⟩
    · exact hzero ((tendsto_const_nhds (x := x0 j)).sub (hlim (hx 0 (Nat.zero_le _)) j)) fun l => (hv (φ l)).init j
    · have h1 := ((h.dyn i hi).tendsto (w.x i, w.u i)).comp (hxu i hi)
      exact hzero ((hlim h1 j).sub (hlim (hx (i + 1) hi) j)) fun l => (hv (φ l)).dyn i hi j
    · have h1 := ((h.ineq i hi).tendsto (w.x i, w.u i)).comp (hxu i hi)
      exact hzero ((hlim h1 j).add (hlim (hs i hi) j)) fun l => (hv (φ l)).ineq i hi j
    · have h1 := ((hc.Vx ⟨0, 0⟩).tendsto (w.x N)).comp (hx N le_rfl)
      exact hzero ((hlim h1 j).sub (hlim (hlam N le_rfl) j)) fun l => (hv (φ l)).term j
    · have h1 := ((hc.hamX hi).tendsto _).comp (hst i hi)
      exact hzero ((hlim h1 j).sub (hlim (hlam i hi.le) j)) fun l => (hv (φ l)).statX i hi j
    · have h1 := ((hc.hamU hi).tendsto _).comp (hst i hi)
      exact hzero (hlim h1 j) fun l => (hv (φ l)).statU i hi j
    · exact le_of_tendsto_of_tendsto' ((hlim (hs i hi) j).mul (hlim (hn i hi) j)) htol fun l => (hv (φ l)).compl i hi j
    · exact ge_of_tendsto' (hlim (hs i hi) j) fun l => (hv (φ l)).slack i hi j
    · exact ge_of_tendsto' (hlim (hn i hi) j) fun l => (hv (φ l)).mult i hi j
  have hev : ∀ᶠ l in atTop, (∀ i ∈ Set.Iic N, ‖(v (φ l)).x i - w.x i‖ ≤ η ∧ ‖(v (φ l)).lam i - w.lam i‖ ≤ η) ∧
      ∀ i ∈ Set.Iio N, ‖(v (φ l)).u i - w.u i‖ ≤ η ∧ ‖(v (φ l)).s i - w.s i‖ ≤ η ∧ ‖(v (φ l)).nu i - w.nu i‖ ≤ η :=
    ((Set.finite_Iic N).eventually_all.2 fun i hi => (eventually_near hη (hx i hi)).and (eventually_near hη (hlam i hi))).and
      ((Set.finite_Iio N).eventually_all.2 fun i hi => (eventually_near hη (hu i hi)).and
        ((eventually_near hη (hs i hi)).and (eventually_near hη (hn i hi))))
  obtain ⟨l, h1, h2⟩ := hev.exists
  obtain ⟨i, hi, hgt⟩ := hfar (φ l) w hwK h1
  have := h2 i hi
  exact absurd this.2.2 (not_le.2 (hgt this.1 this.2.1))

end

end Nmpc.FMPC
