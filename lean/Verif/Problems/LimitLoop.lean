import Verif.Problems.LimitAgreeDdp
import Verif.FMPC.Regulator
import Verif.DDP.ClosedLoopProps

/-!
# DDP with input limits in closed loop (helper lemmas for C143)
-/

set_option linter.unusedSectionVars false

namespace Nmpc.Agree

open Matrix Finset
open DDP (timeAt LQProblem IsTrajectory VDeriv)

/-- Data of a linear-quadratic problem that does not change with the time. -/
structure ConstLQ (n m : ℕ) where
  A : Mat n n ℝ
  B : Mat n m ℝ
  c : Vec n ℝ
  Q : Mat n n ℝ
  M : Mat n m ℝ
  R : Mat m m ℝ
  q : Vec n ℝ
  r : Vec m ℝ
  e : ℝ
  Qf : Mat n n ℝ
  qf : Vec n ℝ
  ef : ℝ
  symmQ : Q.IsSymm
  symmR : R.IsSymm
  symmQf : Qf.IsSymm

variable {n m : ℕ}

/-- The problem with these data at every time. -/
def ConstLQ.problem (z : ConstLQ n m) : LQProblem n (fun _ => m) where
  A _ := z.A
  B _ := z.B
  c _ := z.c
  Q _ := z.Q
  M _ := z.M
  R _ := z.R
  q _ := z.q
  r _ := z.r
  e _ := z.e
  Qf _ := z.Qf
  qf _ := z.qf
  ef _ := z.ef
  symmQ _ := z.symmQ
  symmR _ := z.symmR
  symmQf _ := z.symmQf

/-- `x' = A x + B u + c`. -/
def ConstLQ.next (z : ConstLQ n m) (x : Vec n ℝ) (u : Vec m ℝ) : Vec n ℝ := z.A *ᵥ x + z.B *ᵥ u + z.c

/-- `½xᵀQx + xᵀMu + ½uᵀRu + qᵀx + rᵀu + e`. -/
noncomputable def ConstLQ.run (z : ConstLQ n m) (x : Vec n ℝ) (u : Vec m ℝ) : ℝ :=
  1 / 2 * (x ⬝ᵥ z.Q *ᵥ x) + x ⬝ᵥ z.M *ᵥ u + 1 / 2 * (u ⬝ᵥ z.R *ᵥ u) + z.q ⬝ᵥ x + z.r ⬝ᵥ u + z.e

/-- `½xᵀQf x + qfᵀx + ef`. -/
noncomputable def ConstLQ.term (z : ConstLQ n m) (x : Vec n ℝ) : ℝ := 1 / 2 * (x ⬝ᵥ z.Qf *ᵥ x) + z.qf ⬝ᵥ x + z.ef

/-- Limits that do not change with the time. -/
def constLim (lo hi : Vec m ℝ) : (t : ℝ) → Vec ((fun _ : ℝ => m) t) ℝ × Vec ((fun _ : ℝ => m) t) ℝ := fun _ => (lo, hi)

/-- Nonnegative costs, running cost strongly convex in the input, limits with an interior, and a terminal cost that can be decreased by
the running cost with an input within the limits. -/
structure LimitRegulator (z : ConstLQ n m) (lo hi : Vec m ℝ) (μ : ℝ) : Prop where
  strong : z.problem.StronglyConvex μ
  room : ∃ σ > 0, ∀ i, lo i + 2 * σ ≤ hi i
  run_nonneg : ∀ x u, 0 ≤ z.run x u
  term_nonneg : ∀ x, 0 ≤ z.term x
  terminal : ∀ x, ∃ u, (∀ i, lo i ≤ u i ∧ u i ≤ hi i) ∧ z.term (z.next x u) + z.run x u ≤ z.term x

/-- The least cost of the plans of `N` steps from `x` within the limits. -/
noncomputable def leastCost (z : ConstLQ n m) (lo hi : Vec m ℝ) (dt : ℝ) (N : ℕ) (x : Vec n ℝ) : ℝ :=
  sInf {c | ∃ D, IsTrajectory z.problem.callbacks 0 dt N x D ∧ DDP.WithinLimits (constLim lo hi) 0 dt N D ∧ c = D.costs.sum}

variable {z : ConstLQ n m} {lo hi : Vec m ℝ} {μ dt : ℝ} {N : ℕ}

/-- The call gives the same result at all times. -/
theorem solve_const (L : LLT ℝ) (cfg : DDP.Config ℝ) (o : DDP.Obj n ℝ) (t : ℝ) (sc : DDP.Scratch n (fun _ => m) ℝ) (x : Vec n ℝ)
    (us : List (Σ k : ℕ, Vec k ℝ)) :
    DDP.solve L z.problem.callbacks (some (constLim lo hi)) dt cfg o t sc x us =
      DDP.solve L z.problem.callbacks (some (constLim lo hi)) dt cfg o 0 sc x us := rfl

theorem const_time (dt : ℝ) : FMPC.TimeInvariant (fmpcBox z.problem (constLim lo hi) dt) :=
  ⟨fun _ => rfl, fun _ => rfl, fun _ => rfl, fun _ => rfl, fun _ => rfl, fun _ => rfl, fun _ => rfl, fun _ => rfl⟩

theorem LimitRegulator.regulator (h : LimitRegulator z lo hi μ) (hdt : 0 < dt) :
    FMPC.Regulator (fmpcBox z.problem (constLim lo hi) dt) dt (‖lo‖ + ‖hi‖ + 1) where
  convex := fmpcBox_convex h.strong.convex hdt
  time := const_time dt
  step := hdt
  inputOnly _ _ _ _ := rfl
  interior := by
    obtain ⟨σ, hσ, hr⟩ := h.room
    refine ⟨σ, hσ, (1 / 2 : ℝ) • (lo + hi), fun t x => (fmpcBox_ineq (p := z.problem) (lim := constLim lo hi) t x _ (-σ)).2 fun i => ?_⟩
    have := hr i
    simp only [constLim, Pi.smul_apply, Pi.add_apply, smul_eq_mul]
    constructor <;> linarith
  limited t x u hu := limit_norm zero_le_one ((fmpcBox_ineq (p := z.problem) (lim := constLim lo hi) t x u 1).1 hu)
  run_nonneg t x u := div_nonneg (h.run_nonneg x u) hdt.le
  term_nonneg t x := h.term_nonneg x
  run_smooth t := fmpcBox_run_contDiff (p := z.problem) (lim := constLim lo hi) t
  ineq_smooth t := by
    refine contDiff_pi.2 fun j => ?_
    simp only [fmpcBox]
    refine Fin.addCases (fun i => ?_) (fun i => ?_) j
    · simp only [Fin.append_left, Pi.sub_apply]
      fun_prop
    · simp only [Fin.append_right, Pi.sub_apply]
      fun_prop
  term_smooth t := fmpcBox_term_contDiff (p := z.problem) (lim := constLim lo hi) t
  terminal t x := by
    obtain ⟨u, hu, hd⟩ := h.terminal x
    refine ⟨u, (fmpcBox_ineq (p := z.problem) (lim := constLim lo hi) t x u 0).2 fun i => ?_, ?_⟩
    · rw [sub_zero, add_zero]
      exact hu i
    · have : dt * (z.run x u / dt) = z.run x u := mul_div_cancel₀ _ hdt.ne'
      show z.term (z.next x u) + dt * (z.run x u / dt) ≤ z.term x
      rw [this]
      exact hd

theorem const_feasible {x : Vec n ℝ} {y : ℕ → Vec n ℝ} {u : ℕ → Vec m ℝ} :
    FMPC.FeasibleTraj (fmpcBox z.problem (constLim lo hi) dt) 0 dt x N y u ↔
      (y 0 = x ∧ (∀ i < N, y (i + 1) = z.next (y i) (u i)) ∧ ∀ i < N, ∀ j, lo j ≤ u i j ∧ u i j ≤ hi j) := by
  have h : ∀ i, (∀ j, (fmpcBox z.problem (constLim lo hi) dt).ineqConst (timeAt 0 dt i) (y i) (u i) j ≤ 0) ↔ ∀ j, lo j ≤ u i j ∧ u i j ≤ hi j := by
    intro i
    have := fmpcBox_ineq (p := z.problem) (lim := constLim lo hi) (dt := dt) (timeAt 0 dt i) (y i) (u i) 0
    simp only [sub_zero, add_zero] at this
    exact this
  exact ⟨fun hf => ⟨hf.init, hf.dyn, fun i hi => (h i).1 (hf.ineq i hi)⟩, fun hf => ⟨hf.1, hf.2.1, fun i hi => (h i).2 (hf.2.2 i hi)⟩⟩

/-- The plans of DDP and the feasible trajectories of FMPC are the same. -/
theorem leastCost_eq (hdt : 0 < dt) (x : Vec n ℝ) :
    leastCost z lo hi dt N x = FMPC.value (fmpcBox z.problem (constLim lo hi) dt) dt N x := by
  unfold leastCost FMPC.value
  congr 1
  ext c
  constructor
  · rintro ⟨D, hD, hin, rfl⟩
    obtain ⟨d, hd, rfl⟩ := hD.exists_ctrl (lim := none)
    obtain ⟨hx, hc⟩ := box_cost (lim := constLim lo hi) hdt hd
    refine ⟨_, d.u, const_feasible.2 ⟨rfl, fun i hi => rfl, fun i hi j => ?_⟩, hc.symm⟩
    exact hin i hi _ (DDP.out_us_get (md := fun _ => m) (t0 := 0) (dt := dt) d hi) j
  · rintro ⟨y, u, hf, rfl⟩
    obtain ⟨h0, h1, h2⟩ := const_feasible.1 hf
    have hd := ctrlOf_consistent (p := z.problem) (t0 := 0) (dt := dt) (N := N) (x0 := x) (x := y) (u := u) h0 h1
    refine ⟨(ctrlOf z.problem 0 dt N y u).out N, DDP.out_isTrajectory hd, ?_, ?_⟩
    · intro j hj u' hu' i
      have : u j = u' := DDP.out_us_eq (md := fun _ => m) (t0 := 0) (dt := dt) (c := ctrlOf z.problem 0 dt N y u) hj hu'
      rw [← this]
      exact h2 j hj i
    · rw [← (box_cost (lim := constLim lo hi) hdt hd).2]
      exact FMPC.trajCost_congr (box_cost (lim := constLim lo hi) hdt hd).1

end Nmpc.Agree
