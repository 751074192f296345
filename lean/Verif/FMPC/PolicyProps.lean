import Verif.FMPC.Sim
import Verif.FMPC.Residuals

/-!
# C71 with inequalities: the solver's dependence on the initial state
-/

namespace Nmpc.FMPC

open Matrix Filter Topology

variable {n : ℕ} {m p : ℕ → ℕ} {L : GainSolver ℝ} {N : ℕ} {cfg : Config ℝ} {S : Stages n m p ℝ}

/-- An iteration without line search is a step of the length given by the fraction-to-boundary rule. -/
theorem limited_step (hls : cfg.enableLineSearch = false) {x0 : Vec n ℝ} {iter : ℕ}
    {w w' : Solver n m p ℝ} (h : procOnce L N cfg S x0 iter w = .ok (w', .iterationContinued)) :
    ∃ e, EpsOf N cfg w e ∧ ∃ w2, backwardPass L N cfg S (traced N x0 iter (prepared N S w e)) = (true, w2) ∧ w'.coeff = w2.coeff ∧
      w'.delta = forwardDelta N e x0 w.var w2.coeff w2.term ∧
      0 < alphaMax N w.var.s w'.delta.s ∧ alphaMax N w.var.s w'.delta.s ≤ 1 ∧
      w'.var = applyStep w.var w'.delta (alphaMax N w.var.s w'.delta.s) (alphaMax N w.var.nu w'.delta.nu) := by
  have hout := procOnce_out (L := L) (N := N) (cfg := cfg) (S := S) (x0 := x0) iter w
  rw [h] at hout
  generalize hz : (Res.ok (w', Status.iterationContinued) : Res (Solver n m p ℝ × Status)) = z at hout
  cases hout with
  | ubEps => cases hz
  | succeeded => cases hz
  | backward => cases hz
  | forward => cases hz
  | update e he hk w2 hb w3 hf r hr =>
    have g1 := (backwardPass_frame (L := L) (N := N) (cfg := cfg) (S := S) (traced N x0 iter (prepared N S w e)))
    rw [hb] at g1
    rw [forwardPass_true] at hf
    have hf' := (Prod.ext_iff.1 hf).2
    dsimp only at hf'
    have hv3 : w3.var = w.var := by rw [← hf']; dsimp only; rw [g1.1]; rfl
    have hd3 : w3.delta = forwardDelta N e x0 w.var w2.coeff w2.term := by rw [← hf']; dsimp only; rw [g1.1, g1.2.1]; rfl
    have hc3 : w3.coeff = w2.coeff := by rw [← hf']
    rw [← hr] at hz
    unfold updateVariables at hz
    dsimp only at hz
    split at hz
    · rename_i ha
      unfold lineSearch at hz
      rw [hls] at hz
      simp [Res.map] at hz
      subst hz
      dsimp only
      rw [hv3] at ha ⊢
      simp only [alphaOk, Bool.and_eq_true, ltb_real, leb_real] at ha
      exact ⟨e, he, w2, hb, hc3, hd3, ha.1.1.1, ha.1.1.2, rfl⟩
    · simp [Res.map] at hz

/-- The gains do not depend on the initial state. -/
theorem gains_state {x x' : Vec n ℝ} {iter : ℕ} {w w2 w2' : Solver n m p ℝ} {e e' : ℝ} (he : EpsOf N cfg w e) (he' : EpsOf N cfg w e')
    (hb : backwardPass L N cfg S (traced N x iter (prepared N S w e)) = (true, w2))
    (hb' : backwardPass L N cfg S (traced N x' iter (prepared N S w e')) = (true, w2')) : w2'.coeff = w2.coeff := by
  have hee : e' = e := by
    rcases he with ⟨a, b⟩ | ⟨a, b⟩ <;> rcases he' with ⟨a', b'⟩ | ⟨a', b'⟩
    · rw [b] at b'; exact (Res.ok.inj b').symm
    · rw [a] at a'; cases a'
    · rw [a] at a'; cases a'
    · rw [b, b']
  subst hee
  have e1 : ∀ w : Solver n m p ℝ, (backwardPass L N cfg S w).2.coeff =
      (bwLoop L cfg S.dt w.eps w.var N (smulv (-1) w.term.Lxbar) w.term.V.Vxx w.coeff).2 := by
    intro w
    unfold backwardPass
    dsimp only
    split
    · split <;> rfl
    · rfl
  have h1 := e1 (traced N x iter (prepared N S w e'))
  have h2 := e1 (traced N x' iter (prepared N S w e'))
  rw [hb] at h1
  rw [hb'] at h2
  exact h2.trans h1.symm

/-- The slack directions depend continuously on the initial state. -/
theorem deltaS_continuous (co : (i : ℕ) → Coeff n (m i) (p i) ℝ) (v : Var n m p ℝ) (term : TCoeff n ℝ) (e : ℝ) (i : ℕ) (j : Fin (p i)) :
    Continuous fun x0 => (forwardDelta N e x0 v co term).s i j := by
  have hx : ∀ i, Continuous fun x0 : Vec n ℝ => deltaX co (x0 - v.x 0) i := by
    intro i
    induction i with
    | zero => exact continuous_id.sub continuous_const
    | succ i ih =>
      simp only [deltaX, mulVec_real]
      fun_prop
  have h := hx i
  simp only [forwardDelta, smulv_real, mulVec_real]
  refine (continuous_apply j).comp ?_
  fun_prop

/-- **C71** (partial), with inequalities.  Run the same iteration (no line search) for two initial states.  The gain and the feedforward term `k` of
the first step are the same; the first state and the first input move by a fraction `a`, `a'` of the way (fraction-to-boundary rule).  If
the fractions agree, the first inputs differ by the gain times the difference of the planned first states. -/
theorem C71_policy_ineq_partial (hls : cfg.enableLineSearch = false) {x x' : Vec n ℝ} {iter : ℕ}
    {w w1 w1' : Solver n m p ℝ} (h : procOnce L N cfg S x iter w = .ok (w1, .iterationContinued))
    (h' : procOnce L N cfg S x' iter w = .ok (w1', .iterationContinued)) :
    (w1'.coeff 0).K = (w1.coeff 0).K ∧ ∃ a a' : ℝ, ∃ k : Vec (m 0) ℝ, 0 < a ∧ a ≤ 1 ∧ 0 < a' ∧ a' ≤ 1 ∧
      w1.var.x 0 = w.var.x 0 + a • (x - w.var.x 0) ∧ w1.var.u 0 = w.var.u 0 + a • (k + (w1.coeff 0).K.mulVec (x - w.var.x 0)) ∧
      w1'.var.x 0 = w.var.x 0 + a' • (x' - w.var.x 0) ∧ w1'.var.u 0 = w.var.u 0 + a' • (k + (w1.coeff 0).K.mulVec (x' - w.var.x 0)) ∧
      w1'.var.u 0 = w1.var.u 0 + (w1.coeff 0).K.mulVec (w1'.var.x 0 - w1.var.x 0) + (a' - a) • k := by
  obtain ⟨e, he, w2, hb, hc, hd, p1, p2, hv⟩ := limited_step hls h
  obtain ⟨e', he', w2', hb', hc', hd', p1', p2', hv'⟩ := limited_step hls h'
  have hco := gains_state he he' hb hb'
  generalize alphaMax N w.var.s w1.delta.s = a at p1 p2 hv
  generalize alphaMax N w.var.s w1'.delta.s = a' at p1' p2' hv'
  have e1 : w1.var.x 0 = w.var.x 0 + a • (x - w.var.x 0) := by
    rw [hv, hd]; simp [applyStep, forwardDelta, deltaX]
  have e2 : w1'.var.x 0 = w.var.x 0 + a' • (x' - w.var.x 0) := by
    rw [hv', hd']; simp [applyStep, forwardDelta, deltaX]
  have e3 : w1.var.u 0 = w.var.u 0 + a • ((w2.coeff 0).k + (w1.coeff 0).K.mulVec (x - w.var.x 0)) := by
    rw [hv, hd, hc]; simp [applyStep, forwardDelta, deltaX, add_comm]
  have e4 : w1'.var.u 0 = w.var.u 0 + a' • ((w2.coeff 0).k + (w1.coeff 0).K.mulVec (x' - w.var.x 0)) := by
    rw [hv', hd', hc, hco]; simp [applyStep, forwardDelta, deltaX, add_comm]
  refine ⟨by rw [hc, hc', hco], a, a', (w2.coeff 0).k, p1, p2, p1', p2', e1, e3, e2, e4, ?_⟩
  rw [e4, e3, e1, e2]
  simp only [add_sub_add_left_eq_sub, mulVec_sub, mulVec_smul, smul_sub, smul_add]
  module

/-- **C71** (partial), with inequalities, locally.  If the iteration (no line search) from `x` takes a full step and no slack loses more than 99.5 % of its
value, then for all states `x'` near `x` from which the iteration continues, the new plan starts at `x'` and its first input is
`u_list[0] + K (x' - x_list[0])` with the input, gain and state computed for `x`. -/
theorem C71_policy_near_partial (hls : cfg.enableLineSearch = false) {x : Vec n ℝ} {iter : ℕ} {w w1 : Solver n m p ℝ}
    (h : procOnce L N cfg S x iter w = .ok (w1, .iterationContinued))
    (hfull : ∀ i < N, ∀ j, 5 / 1000 * w.var.s i j < w.var.s i j + w1.delta.s i j) :
    w1.var.x 0 = x ∧ ∀ᶠ x' in 𝓝 x, ∀ w1', procOnce L N cfg S x' iter w = .ok (w1', .iterationContinued) →
      w1'.var.x 0 = x' ∧ (w1'.coeff 0).K = (w1.coeff 0).K ∧ w1'.var.u 0 = w1.var.u 0 + (w1.coeff 0).K.mulVec (x' - w1.var.x 0) := by
  obtain ⟨e, he, w2, hb, hc, hd, p1, p2, hv⟩ := limited_step hls h
  have ha := alphaMax_one (N := N) (v := w.var.s) (dv := w1.delta.s) fun i hi j => (hfull i hi j).le
  rw [ha] at hv
  have e1 : w1.var.x 0 = x := by
    rw [hv, hd]; simp [applyStep, forwardDelta, deltaX]
  refine ⟨e1, ?_⟩
  have hev : ∀ᶠ x' in 𝓝 x, ∀ i ∈ Finset.range N, ∀ j,
      5 / 1000 * w.var.s i j < w.var.s i j + (forwardDelta N e x' w.var w2.coeff w2.term).s i j := by
    rw [Filter.eventually_all_finset]
    intro i hi
    rw [Filter.eventually_all]
    intro j
    have hcont := (deltaS_continuous (N := N) w2.coeff w.var w2.term e i j).continuousAt (x := x)
    have h1 := hfull i (Finset.mem_range.1 hi) j
    rw [hd] at h1
    exact (hcont.const_add (w.var.s i j)).eventually_const_lt h1
  filter_upwards [hev] with x' hx' w1' h'
  obtain ⟨e', he', w2', hb', hc', hd', p1', p2', hv'⟩ := limited_step hls h'
  have hco := gains_state he he' hb hb'
  have hs : w1'.delta.s = (forwardDelta N e x' w.var w2.coeff w2.term).s := by
    rw [hd', hco]; rfl
  have ha' := alphaMax_one (N := N) (v := w.var.s) (dv := w1'.delta.s) fun i hi j => by
    rw [hs]; exact (hx' i (Finset.mem_range.2 hi) j).le
  rw [ha'] at hv'
  have e2 : w1'.var.x 0 = x' := by
    rw [hv', hd']; simp [applyStep, forwardDelta, deltaX]
  refine ⟨e2, by rw [hc, hc', hco], ?_⟩
  rw [e1, hv, hv', hd, hd', hc, hco]
  simp only [applyStep, forwardDelta, deltaX, smulv_real, mulVec_real, one_smul, mulVec_sub]
  abel

end Nmpc.FMPC
