import Verif.DDP.Gain
import Verif.DDP.Entries

/-!
# C17, C18: linear-quadratic problems (exact arithmetic)
-/

namespace Nmpc.DDP

set_option linter.unusedSectionVars false

open Matrix Finset

/-- Specification of a time-varying linear-quadratic problem. -/
structure LQProblem (n : ℕ) (md : ℝ → ℕ) where
  A : ℝ → Mat n n ℝ
  B : (t : ℝ) → Mat n (md t) ℝ
  c : ℝ → Vec n ℝ
  Q : ℝ → Mat n n ℝ
  M : (t : ℝ) → Mat n (md t) ℝ
  R : (t : ℝ) → Mat (md t) (md t) ℝ
  q : ℝ → Vec n ℝ
  r : (t : ℝ) → Vec (md t) ℝ
  e : ℝ → ℝ
  Qf : ℝ → Mat n n ℝ
  qf : ℝ → Vec n ℝ
  ef : ℝ → ℝ
  symmQ : ∀ t, (Q t).IsSymm
  symmR : ∀ t, (R t).IsSymm
  symmQf : ∀ t, (Qf t).IsSymm

/-- `x' = A x + B u + c`, `l = ½xᵀQx + xᵀMu + ½uᵀRu + qᵀx + rᵀu + e`, `φ = ½xᵀQf x + qfᵀx + ef`, with their exact
derivatives. -/
noncomputable def LQProblem.callbacks {n : ℕ} {md : ℝ → ℕ} (p : LQProblem n md) : Callbacks n md where
  stateEq t x u := p.A t *ᵥ x + p.B t *ᵥ u + p.c t
  runningCost t x u := 1 / 2 * (x ⬝ᵥ p.Q t *ᵥ x) + x ⬝ᵥ p.M t *ᵥ u + 1 / 2 * (u ⬝ᵥ p.R t *ᵥ u) + p.q t ⬝ᵥ x + p.r t ⬝ᵥ u + p.e t
  terminalCost t x := 1 / 2 * (x ⬝ᵥ p.Qf t *ᵥ x) + p.qf t ⬝ᵥ x + p.ef t
  stateEqDeriv t _ _ _ := { Fx := p.A t, Fu := p.B t }
  stateEqDeriv2 t _ _ _ := { Fx := p.A t, Fu := p.B t }
  runningCostDeriv t x u _ :=
    { Lx := p.Q t *ᵥ x + p.M t *ᵥ u + p.q t, Lu := (p.M t)ᵀ *ᵥ x + p.R t *ᵥ u + p.r t
      Lxx := p.Q t, Luu := p.R t, Lxu := p.M t }
  terminalCostDeriv t x _ := { Vx := p.Qf t *ᵥ x + p.qf t, Vxx := p.Qf t }

/-- Convexity: the joint stage Hessian and the terminal Hessian are positive semidefinite and the input Hessian is
positive definite. -/
structure LQProblem.Convex {n : ℕ} {md : ℝ → ℕ} (p : LQProblem n md) : Prop where
  stage : ∀ t (x : Vec n ℝ) (u : Vec (md t) ℝ), 0 ≤ x ⬝ᵥ p.Q t *ᵥ x + 2 * (x ⬝ᵥ p.M t *ᵥ u) + u ⬝ᵥ p.R t *ᵥ u
  input : ∀ t, (p.R t).PosDef
  term : ∀ t, (p.Qf t).PosSemidef

variable {n : ℕ} {md : ℝ → ℕ} {p : LQProblem n md} {L : LLT ℝ} {cfg : Config ℝ}
  {lim : Option ((t : ℝ) → Vec (md t) ℝ × Vec (md t) ℝ)}
  {dt t0 : ℝ} {o : Obj n ℝ} {x0 : Vec n ℝ} {us : List (Σ k : ℕ, Vec k ℝ)}
  {scratch : Scratch n (fun i => md (timeAt t0 dt i)) ℝ}

theorem lq_exactModel {N : ℕ} (c : Ctrl n (fun i => md (timeAt t0 dt i)) ℝ)
    (d : Derivs n (fun i => md (timeAt t0 dt i)) ℝ) :
    ExactModel N (stagesOf p.callbacks lim t0 dt N) c (calcDerivs N cfg (stagesOf p.callbacks lim t0 dt N) c d) where
  dyn i hi dx du := by
    simp only [calcDerivs, if_pos hi, stagesOf, LQProblem.callbacks, mulVec_add, ite_self]
    abel
  run i hi dx du := by
    simp only [calcDerivs, if_pos hi, stagesOf, LQProblem.callbacks, mulVec_add, LDeriv.val, dotProduct_add,
      add_dotProduct, tmul_dot]
    rw [symm_dot (p.symmQ _) dx (c.x i), symm_dot (p.symmR _) du (c.u i), dotProduct_comm (p.Q _ *ᵥ c.x i) dx,
      symm_dot (p.symmQ _) dx (c.x i), dotProduct_comm (p.M _ *ᵥ c.u i) dx, dotProduct_comm (p.R _ *ᵥ c.u i) du,
      symm_dot (p.symmR _) du (c.u i)]
    ring
  term dx := by
    simp only [calcDerivs, stagesOf, LQProblem.callbacks, mulVec_add, VDeriv.val, dotProduct_add, add_dotProduct]
    rw [symm_dot (p.symmQf _) dx (c.x N), dotProduct_comm (p.Qf _ *ᵥ c.x N) dx, symm_dot (p.symmQf _) dx (c.x N)]
    ring
  symmL i hi := by
    simp only [calcDerivs, if_pos hi]
    exact p.symmR _
  symmV := p.symmQf _

section
variable {m : ℕ → ℕ} {N : ℕ} {S : Stages n m ℝ}

/-- For a linear-quadratic problem the full step changes the cost by exactly the expected amount. -/
theorem full_step_exact {iter : ℕ} {s s2 : Solver n m ℝ}
    (hb : bwSearch L N cfg S (startIter N cfg S iter s) = (s2, .ok true))
    (hE : ExactModel N S s.ctrl (calcDerivs N cfg S s.ctrl s.derivs)) (hc : Consistent N S x0 s.ctrl) :
    (tryAlpha N cfg S s2 1).actual = (tryAlpha N cfg S s2 1).expected := by
  obtain ⟨h1, h2, _, V, h3, h4, h5, h6⟩ := bwSearch_chain hb
  rw [h2] at h3 h4 h5 h6
  have hid := lq_identity hE h4 h3 hc (forwardPass_consistent (g := s2.gains) (a := 1) hc.start)
  simp only [polErr_forwardPass, sub_self, zero_smul, zero_dotProduct, mulVec_zero, mul_zero, add_zero,
    sum_const_zero] at hid
  rw [(tryAlpha_real s2 1).1, (tryAlpha_real s2 1).2, h1, h5, h6, one_mul, ← sum_add_distrib, ← hid]
  ring

end

/-- **C17** For a linear-quadratic problem, whenever a full step was tried, the recorded actual update of the cost
equals the expected one: for every regularisation, with or without input limits, and whatever the factorisation
routine does. -/
theorem C17_full_step (hN : (us.length : ℤ) = cfg.horizon) (hd : DimsOk md t0 dt us) :
    ∀ e ∈ (solve L p.callbacks lim dt cfg o t0 scratch x0 us).1.trace, e.alpha = 1 → e.actual = e.expected := by
  intro e he ha
  obtain ⟨i, hi⟩ := List.mem_iff_getElem?.1 he
  obtain ⟨h1, s, s2, hr, hc, ht, hs⟩ := solve_entry hN hd hi (by rw [ha]; exact one_ne_zero)
  obtain ⟨a, _, h3, h4⟩ := lineSearch_some s2 (by rw [← hs.alpha, ha]; exact one_ne_zero)
  have : a = 1 := by rw [← h4, ← hs.alpha, ha]
  subst this
  rw [hs.actual, hs.expected, h3]
  exact full_step_exact hs.bw (lq_exactModel _ _) hc

end Nmpc.DDP
