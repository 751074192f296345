import Verif.DDP.Nonlinear

/-!
# C72, C73: differentiable problems (exact arithmetic, no limits)

`C73_gradient` and `C73_stationary_iff` give the meaning of `Stationary`: the adjoint recursion computes the gradient of the total cost
with respect to the inputs.  `C72_descent`: at a trajectory that is not stationary the line search succeeds if it tries
a sufficiently small step size, whatever the regularisation.
-/

namespace Nmpc.DDP

set_option linter.unusedSectionVars false

open Matrix Finset

section Stage
variable {n : ℕ} {m : ℕ → ℕ} {L : LLT ℝ} {N : ℕ} {cfg : Config ℝ} {S : Stages n m ℝ} {x0 : Vec n ℝ}
  {c : Ctrl n m ℝ} {d : Derivs n m ℝ} {g : Gains n m ℝ}

theorem IsJac2.unique {a b c : ℕ} {f : Vec a ℝ → Vec b ℝ → Vec c ℝ} {x : Vec a ℝ} {u : Vec b ℝ} {A A' : Mat c a ℝ} {B B' : Mat c b ℝ}
    (h : IsJac2 f x u A B) (h' : IsJac2 f x u A' B') : A = A' ∧ B = B' := by
  obtain ⟨D, hD, hv⟩ := h
  obtain ⟨D', hD', hv'⟩ := h'
  obtain rfl := hD.unique hD'
  constructor
  · refine Matrix.ext_of_mulVec_single fun i => ?_
    have := (hv (Pi.single i 1) 0).symm.trans (hv' _ _)
    simpa only [mulVec_zero, add_zero] using this
  · refine Matrix.ext_of_mulVec_single fun i => ?_
    have := (hv 0 (Pi.single i 1)).symm.trans (hv' _ _)
    simpa only [mulVec_zero, zero_add] using this

theorem IsGrad2.unique {a b : ℕ} {f : Vec a ℝ → Vec b ℝ → ℝ} {x : Vec a ℝ} {u : Vec b ℝ} {g g' : Vec a ℝ} {h h' : Vec b ℝ}
    (h1 : IsGrad2 f x u g h) (h2 : IsGrad2 f x u g' h') : g = g' ∧ h = h' := by
  obtain ⟨D, hD, hv⟩ := h1
  obtain ⟨D', hD', hv'⟩ := h2
  obtain rfl := hD.unique hD'
  constructor
  · ext i
    have := (hv (Pi.single i 1) 0).symm.trans (hv' _ _)
    simpa using this
  · ext i
    have := (hv 0 (Pi.single i 1)).symm.trans (hv' _ _)
    simpa using this

theorem IsGrad1.unique {a : ℕ} {f : Vec a ℝ → ℝ} {x g g' : Vec a ℝ} (h1 : IsGrad1 f x g) (h2 : IsGrad1 f x g') : g = g' := by
  obtain ⟨D, hD, hv⟩ := h1
  obtain ⟨D', hD', hv'⟩ := h2
  obtain rfl := hD.unique hD'
  ext i
  have := (hv (Pi.single i 1)).symm.trans (hv' _)
  simpa using this

/-- The adjoint identity: without feedback the slope is the scalar product of the adjoint gradient and the direction. -/
theorem slope_adjoint (v : (i : ℕ) → Vec (m i) ℝ) {p : ℕ → Vec n ℝ} (hN : p N = d.V.Vx)
    (hp : ∀ j < N, p j = (d.L j).Lx + (d.F j).Fxᵀ *ᵥ p (j + 1)) :
    slope N d ⟨v, fun _ => 0⟩ = ∑ j ∈ range N, ((d.L j).Lu + (d.F j).Fuᵀ *ᵥ p (j + 1)) ⬝ᵥ v j := by
  set X := linX d (⟨v, fun _ => 0⟩ : Gains n m ℝ) with hX
  have hU : ∀ j, linU d (⟨v, fun _ => 0⟩ : Gains n m ℝ) j = v j := fun j => by simp [linU]
  have hstep : ∀ j, X (j + 1) = (d.F j).Fx *ᵥ X j + (d.F j).Fu *ᵥ v j := fun j => by
    show (d.F j).Fx *ᵥ X j + (d.F j).Fu *ᵥ (v j + (0 : Mat (m j) n ℝ) *ᵥ X j) = _
    simp
  have htel : ∑ j ∈ range N, (p (j + 1) ⬝ᵥ X (j + 1) - p j ⬝ᵥ X j) = p N ⬝ᵥ X N := by
    rw [sum_range_sub (fun j => p j ⬝ᵥ X j)]
    have : X 0 = 0 := rfl
    rw [this, dotProduct_zero, sub_zero]
  unfold slope
  rw [← hN, ← htel, ← sum_add_distrib]
  refine sum_congr rfl fun j hj => ?_
  rw [hp j (mem_range.1 hj), hstep, hU, add_dotProduct, add_dotProduct, dotProduct_add, mulVec_transpose, mulVec_transpose,
    ← dotProduct_mulVec, ← dotProduct_mulVec]
  ring

theorem consistent_ext {c c' : Ctrl n m ℝ} (h : Consistent N S x0 c) (h' : Consistent N S x0 c') (hu : ∀ j < N, c.u j = c'.u j) :
    c.out N = c'.out N := by
  have hx : ∀ j ≤ N, c.x j = c'.x j := by
    intro j
    induction j with
    | zero => intro _; rw [h.start, h'.start]
    | succ j ih => intro hj; rw [h.step j (by omega), h'.step j (by omega), ih (by omega), hu j (by omega)]
  refine out_congr hx hu fun j hj => ?_
  rcases Nat.lt_or_eq_of_le hj with hj | rfl
  · rw [h.run j hj, h'.run j hj, hx j hj.le, hu j hj]
  · rw [h.term, h'.term, hx _ le_rfl]

/-! ## One iteration -/

theorem tryAlphas_exists {s : Solver n m ℝ} {as : List ℝ} (h : ∃ a ∈ as, (tryAlpha N cfg S s a).success = true) (r : Fwd n m ℝ) :
    (tryAlphas N cfg S s as r).success = true := by
  induction as generalizing r with
  | nil => obtain ⟨a, ha, _⟩ := h; cases ha
  | cons b as ih =>
    unfold tryAlphas
    by_cases hb : (tryAlpha N cfg S s b).success = true
    · simp only [hb, if_true]
    · simp only [hb]
      obtain ⟨a, ha, hs⟩ := h
      rcases List.mem_cons.1 ha with rfl | ha
      · exact absurd hs hb
      · exact ih ⟨a, ha, hs⟩ _

theorem lineSearch_exists {s : Solver n m ℝ} (h : ∃ a ∈ cfg.alphaList, (tryAlpha N cfg S s a).success = true) :
    (lineSearch N cfg S s).success = true := tryAlphas_exists h _

/-- An accepted candidate is not worse. -/
theorem tryAlpha_actual (hr : 0 ≤ cfg.costUpdateRatioThre) {s : Solver n m ℝ} {a : ℝ} (h : (tryAlpha N cfg S s a).success = true) :
    0 ≤ (tryAlpha N cfg S s a).actual ∧ (0 < (tryAlpha N cfg S s a).expected → 0 < (tryAlpha N cfg S s a).actual) := by
  have h7 : (tryAlpha N cfg S s a).ratio = if ltb (tryAlpha N cfg S s a).expected 0 then
        (if leb 0 (tryAlpha N cfg S s a).actual then 1 else -1)
      else (tryAlpha N cfg S s a).actual / (tryAlpha N cfg S s a).expected := rfl
  have h8 : cfg.costUpdateRatioThre < (tryAlpha N cfg S s a).ratio := by
    have : ltb cfg.costUpdateRatioThre (tryAlpha N cfg S s a).ratio = true := h
    simpa using this
  generalize (tryAlpha N cfg S s a).ratio = r at *
  generalize (tryAlpha N cfg S s a).actual = x at *
  generalize (tryAlpha N cfg S s a).expected = e at *
  by_cases he : e < 0
  · rw [if_pos (by simpa using he)] at h7
    refine ⟨?_, fun h => absurd h he.not_gt⟩
    by_contra hx
    rw [if_neg (by simpa using hx)] at h7
    linarith
  · rw [if_neg (by simpa using he)] at h7
    have hpos : 0 < x / e := by linarith
    rcases div_pos_iff.1 hpos with ⟨h1, h2⟩ | ⟨h1, h2⟩
    · exact ⟨h1.le, fun _ => h1⟩
    · exact absurd h2 he

/-- No iteration increases the cost. -/
theorem procOnce_cost_le (hr : 0 ≤ cfg.costUpdateRatioThre) (iter : ℕ) (s : Solver n m ℝ) :
    totalCost N (procOnce L N cfg S iter s).1.ctrl ≤ totalCost N s.ctrl := by
  have hfr := bwSearch_frame (L := L) (N := N) (cfg := cfg) (S := S) (startIter N cfg S iter s)
  have := procOnce_out (L := L) (N := N) (cfg := cfg) (S := S) iter s
  generalize procOnce L N cfg S iter s = r at this
  cases this with
  | bwFail s2 hb => rw [hb] at hfr; rw [show s2.ctrl = s.ctrl from hfr.1]
  | err s2 e he hb => rw [hb] at hfr; rw [show s2.ctrl = s.ctrl from hfr.1]
  | small s2 hb hk hl' => rw [hb] at hfr; exact (congrArg (totalCost N) (show s2.ctrl = s.ctrl from hfr.1)).le
  | full s2 hb hk =>
    rw [hb] at hfr
    have hcc : s2.ctrl = s.ctrl := hfr.1
    have hq := finishStep_out (N := N) (cfg := cfg) s.trace
      { Trace.new iter with
        kRelNorm := kRelNorm N s2, alpha := (lineSearch N cfg S s2).alpha, actual := (lineSearch N cfg S s2).actual,
        expected := (lineSearch N cfg S s2).expected, ratio := (lineSearch N cfg S s2).ratio } (lineSearch N cfg S s2) s2
    generalize finishStep N cfg s.trace _ (lineSearch N cfg S s2) s2 = q at hq
    cases hq with
    | accept hsu v hv =>
      obtain ⟨a, _, ha⟩ := lineSearch_success hsu
      rw [ha] at hsu
      have h1 := (tryAlpha_actual hr hsu).1
      rw [(tryAlpha_real s2 a).1, hcc] at h1
      show totalCost N (lineSearch N cfg S s2).cand ≤ _
      rw [ha]
      show totalCost N (forwardPass N S s2.ctrl s2.gains a) ≤ _
      rw [hcc]; linarith
    | reject hsu v hv => exact (congrArg (totalCost N) hcc).le

/-- The backward pass does not depend on the step sizes. -/
theorem bwLoop_alphaList (as : List ℝ) (lambda : ℝ) (i : ℕ) (b : BwState n m ℝ) :
    bwLoop L N { cfg with alphaList := as } S c d lambda i b = bwLoop L N cfg S c d lambda i b := by
  induction i generalizing b with
  | zero => rfl
  | succ i ih =>
    unfold bwLoop
    simp only [ih]
    rfl

theorem bwSearch_alphaList (as : List ℝ) (s : Solver n m ℝ) :
    bwSearch L N { cfg with alphaList := as } S s = bwSearch L N cfg S s := by
  have : bwRound L N { cfg with alphaList := as } S = bwRound L N cfg S := by
    funext s
    unfold bwRound backwardPass
    rw [bwLoop_alphaList]
    rfl
  unfold bwSearch
  rw [this]

end Stage

variable {n : ℕ} {md : ℝ → ℕ} {P : Callbacks n md} {L : LLT ℝ} {cfg : Config ℝ}
  {lim : Option ((t : ℝ) → Vec (md t) ℝ × Vec (md t) ℝ)}
  {dt t0 : ℝ} {N : ℕ} {o : Obj n ℝ} {x0 : Vec n ℝ} {us : List (Σ k : ℕ, Vec k ℝ)}
  {scratch : Scratch n (fun i => md (timeAt t0 dt i)) ℝ}

theorem out_us_get (c : Ctrl n (fun i => md (timeAt t0 dt i)) ℝ) {j : ℕ} (hj : j < N) :
    (c.out N).us[j]? = some ⟨md (timeAt t0 dt j), c.u j⟩ := by simp [Ctrl.out, List.getElem?_range hj]

theorem out_us_eq {c : Ctrl n (fun i => md (timeAt t0 dt i)) ℝ} {j : ℕ} (hj : j < N) {u : Vec (md (timeAt t0 dt j)) ℝ}
    (h : (c.out N).us[j]? = some ⟨md (timeAt t0 dt j), u⟩) : c.u j = u := by
  rw [out_us_get c hj] at h
  exact eq_of_heq (Sigma.mk.inj (Option.some.inj h)).2

/-- Specification: along the trajectory `d` the state equation and the costs are differentiable (jointly in state and input) and the
first derivatives returned by the problem, whatever their output buffers contained, are their derivatives. -/
structure FirstOrderAlong (P : Callbacks n md) (t0 dt : ℝ) (N : ℕ) (d : ControlData n ℝ) : Prop where
  dyn : ∀ j < N, ∀ x u, d.xs[j]? = some x → d.us[j]? = some ⟨md (t0 + lit (j : ℚ) * dt), u⟩ → ∀ b,
    IsJac2 (P.stateEq (t0 + lit (j : ℚ) * dt)) x u (P.stateEqDeriv (t0 + lit (j : ℚ) * dt) x u b).Fx
      (P.stateEqDeriv (t0 + lit (j : ℚ) * dt) x u b).Fu
  run : ∀ j < N, ∀ x u, d.xs[j]? = some x → d.us[j]? = some ⟨md (t0 + lit (j : ℚ) * dt), u⟩ → ∀ b,
    IsGrad2 (P.runningCost (t0 + lit (j : ℚ) * dt)) x u (P.runningCostDeriv (t0 + lit (j : ℚ) * dt) x u b).Lx
      (P.runningCostDeriv (t0 + lit (j : ℚ) * dt) x u b).Lu
  term : ∀ x, d.xs[N]? = some x → ∀ b,
    IsGrad1 (P.terminalCost (t0 + lit (N : ℚ) * dt)) x (P.terminalCostDeriv (t0 + lit (N : ℚ) * dt) x b).Vx

theorem FirstOrderAlong.at (h2 : cfg.useSecond = false) {c : Ctrl n (fun i => md (timeAt t0 dt i)) ℝ}
    (h : FirstOrderAlong P t0 dt N (c.out N)) (d : Derivs n (fun i => md (timeAt t0 dt i)) ℝ) :
    FirstOrderAt N (stagesOf P lim t0 dt N) c (calcDerivs N cfg (stagesOf P lim t0 dt N) c d) := by
  have hx : ∀ j ≤ N, (c.out N).xs[j]? = some (c.x j) := fun j hj => by
    simp [Ctrl.out, List.getElem?_range (show j < N + 1 by omega)]
  have hu : ∀ j < N, (c.out N).us[j]? = some ⟨md (t0 + lit (j : ℚ) * dt), c.u j⟩ := fun j hj => by
    simp [Ctrl.out, List.getElem?_range hj, timeAt]
  refine ⟨fun j hj => ?_, fun j hj => ?_, h.term _ (hx N le_rfl) _⟩
  · simp only [calcDerivs, if_pos hj, h2]
    exact h.dyn j hj _ _ (hx j hj.le) (hu j hj) _
  · simp only [calcDerivs, if_pos hj]
    exact h.run j hj _ _ (hx j hj.le) (hu j hj) _

/-- For true derivatives stationarity does not depend on the contents of the buffers. -/
theorem Stationary.of_at (h2 : cfg.useSecond = false) {c : Ctrl n (fun i => md (timeAt t0 dt i)) ℝ}
    (hF : FirstOrderAlong P t0 dt N (c.out N)) {d : Derivs n (fun i => md (timeAt t0 dt i)) ℝ}
    (h : StationaryAt N (calcDerivs N cfg (stagesOf P lim t0 dt N) c d)) : Stationary P t0 dt N (c.out N) := by
  have hx : ∀ j ≤ N, (c.out N).xs[j]? = some (c.x j) := fun j hj => by
    simp [Ctrl.out, List.getElem?_range (show j < N + 1 by omega)]
  have hu : ∀ j < N, (c.out N).us[j]? = some ⟨md (t0 + lit (j : ℚ) * dt), c.u j⟩ := fun j hj => by
    simp [Ctrl.out, List.getElem?_range hj, timeAt]
  obtain ⟨p, h1, h3⟩ := h
  refine ⟨p, fun x hx' b => ?_, fun j hj x u hx' hu' bF bL => ?_⟩
  · obtain rfl : c.x N = x := by simpa [hx N le_rfl] using hx'
    exact ((hF.term _ (hx N le_rfl) b).unique (hF.term _ (hx N le_rfl) d.V)).trans h1.symm
  · obtain rfl : c.x j = x := by simpa [hx j hj.le] using hx'
    rw [hu j hj] at hu'
    obtain rfl : c.u j = u := eq_of_heq (Sigma.mk.inj (Option.some.inj hu')).2
    have e1 := (hF.dyn j hj _ _ (hx j hj.le) (hu j hj) bF).unique (hF.dyn j hj _ _ (hx j hj.le) (hu j hj) (d.F j))
    have e2 := (hF.run j hj _ _ (hx j hj.le) (hu j hj) bL).unique (hF.run j hj _ _ (hx j hj.le) (hu j hj) (d.L j))
    have := h3 j hj
    simp only [calcDerivs, if_pos hj, h2] at this
    rw [e1.1, e1.2, e2.1, e2.2]
    exact ⟨this.1.symm, this.2⟩

/-- Specification: `D` is the family of trajectories whose inputs are those of `d` plus `s` times the direction `v`
(`timeAt t0 dt j` is `t0 + j * dt`). -/
structure InputVariation (P : Callbacks n md) (t0 dt : ℝ) (N : ℕ) (x0 : Vec n ℝ) (d : ControlData n ℝ)
    (v : (j : ℕ) → Vec (md (timeAt t0 dt j)) ℝ) (D : ℝ → ControlData n ℝ) : Prop where
  traj : ∀ s, IsTrajectory P t0 dt N x0 (D s)
  input : ∀ s, ∀ j < N, ∀ u, d.us[j]? = some ⟨md (timeAt t0 dt j), u⟩ →
    (D s).us[j]? = some ⟨md (timeAt t0 dt j), u + s • v j⟩

/-- Every direction has a (unique) family of trajectories. -/
theorem InputVariation.exists {d : ControlData n ℝ} (hd : IsTrajectory P t0 dt N x0 d) (v : (j : ℕ) → Vec (md (timeAt t0 dt j)) ℝ) :
    ∃ D, InputVariation P t0 dt N x0 d v D := by
  obtain ⟨c, hc, rfl⟩ := hd.exists_ctrl (lim := none)
  refine ⟨fun s => (forwardPass N (stagesOf P none t0 dt N) c ⟨v, fun _ => 0⟩ s).out N, fun s =>
    out_isTrajectory (forwardPass_consistent hc.start), fun s j hj u hu => ?_⟩
  obtain rfl := out_us_eq hj hu
  have h0 : ((0 : Mat (md (timeAt t0 dt j)) n ℝ) *ᵥ ((forwardPass N (stagesOf P none t0 dt N) c ⟨v, fun _ => 0⟩ s).x j - c.x j)) = 0 :=
    zero_mulVec _
  have : (forwardPass N (stagesOf P none t0 dt N) c ⟨v, fun _ => 0⟩ s).u j = c.u j + s • v j := by
    rw [forwardPass_u]; simp only [h0, add_zero]
  rw [out_us_get _ hj, this]

theorem InputVariation.eq {c : Ctrl n (fun i => md (timeAt t0 dt i)) ℝ} (hc : Consistent N (stagesOf P lim t0 dt N) x0 c)
    {v : (j : ℕ) → Vec (md (timeAt t0 dt j)) ℝ} {D : ℝ → ControlData n ℝ} (hD : InputVariation P t0 dt N x0 (c.out N) v D) (s : ℝ) :
    D s = (forwardPass N (stagesOf P lim t0 dt N) c ⟨v, fun _ => 0⟩ s).out N := by
  obtain ⟨c', hc', he⟩ := (hD.traj s).exists_ctrl (lim := lim)
  rw [← he]
  refine consistent_ext hc' (forwardPass_consistent hc.start) fun j hj => ?_
  have h1 := hD.input s j hj (c.u j) (out_us_get c hj)
  rw [← he] at h1
  have h2 : c'.u j = c.u j + s • v j := out_us_eq hj h1
  rw [h2, forwardPass_u]
  have h0 : ((0 : Mat (md (timeAt t0 dt j)) n ℝ) *ᵥ ((forwardPass N (stagesOf P lim t0 dt N) c ⟨v, fun _ => 0⟩ s).x j - c.x j)) = 0 :=
    zero_mulVec _
  simp only [h0, add_zero]

/-- **C73** If the problem returns true first derivatives along the trajectory `d`, then for every variation of the inputs in a
direction `v` the total cost is differentiable and its derivative is the scalar product of `v` with the gradient
`∂ᵤl + Fuᵀ p_{j+1}` computed from the costate recursion `p_N = ∂φ`, `p_j = ∂ₓl + Fxᵀ p_{j+1}`. -/
theorem C73_gradient {d : ControlData n ℝ} (hd : IsTrajectory P t0 dt N x0 d) (hF : FirstOrderAlong P t0 dt N d)
    (v : (j : ℕ) → Vec (md (timeAt t0 dt j)) ℝ) {D : ℝ → ControlData n ℝ} (hD : InputVariation P t0 dt N x0 d v D)
    (bF : (j : ℕ) → FDeriv n (md (timeAt t0 dt j)) ℝ) (bL : (j : ℕ) → LDeriv n (md (timeAt t0 dt j)) ℝ) (bV : VDeriv n ℝ)
    (x : ℕ → Vec n ℝ) (u : (j : ℕ) → Vec (md (timeAt t0 dt j)) ℝ) (hx : ∀ j ≤ N, d.xs[j]? = some (x j))
    (hu : ∀ j < N, d.us[j]? = some ⟨md (timeAt t0 dt j), u j⟩) (p : ℕ → Vec n ℝ)
    (hp : p N = (P.terminalCostDeriv (timeAt t0 dt N) (x N) bV).Vx)
    (hs : ∀ j < N, p j = (P.runningCostDeriv (timeAt t0 dt j) (x j) (u j) (bL j)).Lx +
      (P.stateEqDeriv (timeAt t0 dt j) (x j) (u j) (bF j)).Fxᵀ *ᵥ p (j + 1)) :
    HasDerivAt (fun s => (D s).costs.sum)
      (∑ j ∈ range N, ((P.runningCostDeriv (timeAt t0 dt j) (x j) (u j) (bL j)).Lu +
        (P.stateEqDeriv (timeAt t0 dt j) (x j) (u j) (bF j)).Fuᵀ *ᵥ p (j + 1)) ⬝ᵥ v j) 0 := by
  obtain ⟨c, hc, rfl⟩ := hd.exists_ctrl (lim := none)
  have hcx : ∀ j ≤ N, c.x j = x j := fun j hj => by
    have := hx j hj
    simpa [Ctrl.out, List.getElem?_range (show j < N + 1 by omega)] using this
  have hcu : ∀ j < N, c.u j = u j := fun j hj => out_us_eq hj (hu j hj)
  let cfg : Config ℝ := ⟨false, false, 0, 0, 1, 0, 0, 0, 0, 0, 0, 0, [], 0, 0⟩
  let b : Derivs n (fun i => md (timeAt t0 dt i)) ℝ := ⟨bF, bL, bV⟩
  have hat := hF.at (cfg := cfg) (lim := none) rfl b
  set dd := calcDerivs N cfg (stagesOf P none t0 dt N) c b with hdd
  have hFd : ∀ j < N, dd.F j = P.stateEqDeriv (timeAt t0 dt j) (x j) (u j) (bF j) := fun j hj => by
    rw [← hcx j hj.le, ← hcu j hj]; simp only [hdd, calcDerivs, if_pos hj]; rfl
  have hLd : ∀ j < N, dd.L j = P.runningCostDeriv (timeAt t0 dt j) (x j) (u j) (bL j) := fun j hj => by
    rw [← hcx j hj.le, ← hcu j hj]; simp only [hdd, calcDerivs, if_pos hj]; rfl
  have hVd : dd.V = P.terminalCostDeriv (timeAt t0 dt N) (x N) bV := by rw [← hcx N le_rfl]; rfl
  have h1 := hasDerivAt_cost (g := ⟨v, fun _ => 0⟩) hc hat
  rw [slope_adjoint v (p := p) (by rw [hVd]; exact hp) (fun j hj => by rw [hFd j hj, hLd j hj]; exact hs j hj)] at h1
  have h2 : ∑ j ∈ range N, ((dd.L j).Lu + (dd.F j).Fuᵀ *ᵥ p (j + 1)) ⬝ᵥ v j =
      ∑ j ∈ range N, ((P.runningCostDeriv (timeAt t0 dt j) (x j) (u j) (bL j)).Lu +
        (P.stateEqDeriv (timeAt t0 dt j) (x j) (u j) (bF j)).Fuᵀ *ᵥ p (j + 1)) ⬝ᵥ v j :=
    sum_congr rfl fun j hj => by rw [hFd j (mem_range.1 hj), hLd j (mem_range.1 hj)]
  rw [h2] at h1
  refine h1.congr_of_eventuallyEq (Filter.Eventually.of_forall fun s => ?_)
  show (D s).costs.sum = _
  rw [hD.eq hc, totalCost_out]

/-- **C73** Consequently `Stationary` is exactly the vanishing of all directional derivatives of the total cost with respect to the
inputs. -/
theorem C73_stationary_iff {d : ControlData n ℝ} (hd : IsTrajectory P t0 dt N x0 d) (hF : FirstOrderAlong P t0 dt N d) :
    Stationary P t0 dt N d ↔ ∀ v D, InputVariation P t0 dt N x0 d v D → HasDerivAt (fun s => (D s).costs.sum) 0 0 := by
  have hd0 := hd
  obtain ⟨c, hc, rfl⟩ := hd.exists_ctrl (lim := none)
  have hx : ∀ j ≤ N, (c.out N).xs[j]? = some (c.x j) := fun j hj => by
    simp [Ctrl.out, List.getElem?_range (show j < N + 1 by omega)]
  have hu : ∀ j < N, (c.out N).us[j]? = some ⟨md (timeAt t0 dt j), c.u j⟩ := fun j hj => by
    simp [Ctrl.out, List.getElem?_range hj, timeAt]
  let bF : (j : ℕ) → FDeriv n (md (timeAt t0 dt j)) ℝ := fun _ => ⟨0, 0⟩
  let bL : (j : ℕ) → LDeriv n (md (timeAt t0 dt j)) ℝ := fun _ => ⟨0, 0, 0, 0, 0⟩
  let bV : VDeriv n ℝ := ⟨0, 0⟩
  constructor
  · rintro ⟨p, h1, h2⟩ v D hD
    have := C73_gradient hd0 hF v hD bF bL bV c.x c.u hx hu p (h1 _ (hx N le_rfl) _).symm
      (fun j hj => (h2 j hj _ _ (hx j hj.le) (hu j hj) _ _).1.symm)
    refine this.congr_deriv (sum_eq_zero fun j hj => ?_)
    have hj := mem_range.1 hj
    have h3 := (h2 j hj _ _ (hx j hj.le) (hu j hj) (bF j) (bL j)).2
    exact (congrArg (· ⬝ᵥ v j) h3).trans (zero_dotProduct _)
  · intro h
    -- the costate
    let A : (j : ℕ) → Vec n ℝ → Vec n ℝ := fun j q => (P.runningCostDeriv (timeAt t0 dt j) (c.x j) (c.u j) (bL j)).Lx +
      (P.stateEqDeriv (timeAt t0 dt j) (c.x j) (c.u j) (bF j)).Fxᵀ *ᵥ q
    obtain ⟨p, hpN, hps⟩ : ∃ p : ℕ → Vec n ℝ, p N = (P.terminalCostDeriv (timeAt t0 dt N) (c.x N) bV).Vx ∧
        ∀ j < N, p j = A j (p (j + 1)) := by
      let q : ℕ → Vec n ℝ := fun i => Nat.rec (P.terminalCostDeriv (timeAt t0 dt N) (c.x N) bV).Vx
        (fun i r => A (N - (i + 1)) r) i
      refine ⟨fun j => q (N - j), by simp [q], fun j hj => ?_⟩
      show q (N - j) = A j (q (N - (j + 1)))
      have h1 : N - j = (N - (j + 1)) + 1 := by omega
      rw [h1]
      show A (N - (N - (j + 1) + 1)) (q (N - (j + 1))) = _
      rw [show N - (N - (j + 1) + 1) = j by omega]
    let G : (j : ℕ) → Vec (md (timeAt t0 dt j)) ℝ := fun j =>
      (P.runningCostDeriv (timeAt t0 dt j) (c.x j) (c.u j) (bL j)).Lu +
        (P.stateEqDeriv (timeAt t0 dt j) (c.x j) (c.u j) (bF j)).Fuᵀ *ᵥ p (j + 1)
    obtain ⟨D, hD⟩ := InputVariation.exists hd0 G
    have h1 := (C73_gradient hd0 hF G hD bF bL bV c.x c.u hx hu p hpN hps).unique (h G D hD)
    have h2 : ∀ j < N, G j = 0 := by
      intro j hj
      have := (sum_eq_zero_iff_of_nonneg (fun j _ => by
        show (0 : ℝ) ≤ G j ⬝ᵥ G j
        exact sum_nonneg fun i _ => mul_self_nonneg _)).1 h1 j (mem_range.2 hj)
      exact dotProduct_self_eq_zero.1 this
    let cfg : Config ℝ := ⟨false, false, 0, 0, 1, 0, 0, 0, 0, 0, 0, 0, [], 0, 0⟩
    refine Stationary.of_at (cfg := cfg) (lim := none) rfl hF (d := ⟨bF, bL, bV⟩) ⟨p, hpN, fun j hj => ?_⟩
    have e1 : (calcDerivs N cfg (stagesOf P none t0 dt N) c ⟨bF, bL, bV⟩).F j =
        P.stateEqDeriv (timeAt t0 dt j) (c.x j) (c.u j) (bF j) := if_pos hj
    have e2 : (calcDerivs N cfg (stagesOf P none t0 dt N) c ⟨bF, bL, bV⟩).L j =
        P.runningCostDeriv (timeAt t0 dt j) (c.x j) (c.u j) (bL j) := if_pos hj
    rw [e1, e2]
    exact ⟨hps j hj, h2 j hj⟩

/-- **C72** Let the derivative callbacks return true first derivatives along the initial trajectory `d` and convex cost Hessians (the
second derivatives need not be those of the cost), `0 ≤ initial_lambda`, `0 ≤ cost_update_ratio_thre < 1/2`, `max_iter ≥ 1`, no limits.  If
`d` is not stationary then there is a threshold `a0 > 0` such that for every list of step sizes in `(0, 2)` that contains one not
greater than `a0`, `solve` either stops in the first iteration because of the small-gradient test, leaving `d` unchanged, or ends with a
strictly smaller total cost. -/
theorem C72_descent (hL : L.Exact) (hw : cfg.withConstraint = false) (h2 : cfg.useSecond = false) (hP : P.ConvexHess)
    (h0 : 0 ≤ cfg.initialLambda) (hr0 : 0 ≤ cfg.costUpdateRatioThre) (hr : cfg.costUpdateRatioThre < 1 / 2) (hmax : 1 ≤ cfg.maxIter)
    (hN : (us.length : ℤ) = cfg.horizon) (hd : DimsOk md t0 dt us) {d : ControlData n ℝ}
    (htraj : IsTrajectory P t0 dt us.length x0 d) (hu : d.us = us) (hF : FirstOrderAlong P t0 dt us.length d)
    (hst : ¬ Stationary P t0 dt us.length d) :
    ∃ a0, 0 < a0 ∧ ∀ as : List ℝ, (∀ a ∈ as, 0 < a ∧ a < 2) → (∃ a ∈ as, a ≤ a0) →
      ∀ r, r = solve L P lim dt { cfg with alphaList := as } o t0 scratch x0 us →
      (r.2 = .ok true ∧ r.1.control = d ∧ r.1.trace.length = 2 ∧ (∃ e, r.1.trace[1]? = some e ∧ e.kRelNorm < cfg.kRelNormThre) ∧
          cfg.initialLambda < cfg.lambdaThre) ∨
        r.1.control.costs.sum < d.costs.sum := by
  have hstart := trajectory_eq_start (lim := lim) (cfg := cfg) (scratch := scratch) hd htraj hu
  set s0 := start P lim dt cfg t0 scratch x0 us with hs0
  set S := stagesOf P lim t0 dt us.length with hS
  rw [← hstart] at hst hF ⊢
  have hcons : Consistent us.length S x0 s0.ctrl := rollout_consistent _ _
  have hconv : ConvexModel us.length (calcDerivs us.length cfg S s0.ctrl s0.derivs) := by
    refine ⟨fun i hi dx du => ?_, fun i hi => ?_, hP.term _ _ _⟩
    · simp only [calcDerivs, if_pos hi]; exact hP.stage _ _ _ _ dx du
    · simp only [calcDerivs, if_pos hi]; exact hP.input _ _ _ _
  have hLs : ∀ j < us.length, ((calcDerivs us.length cfg S s0.ctrl s0.derivs).L j).Luu.IsSymm :=
    fun j hj => (posDef_iff.1 (hconv.input j hj)).1
  have hVs : (calcDerivs us.length cfg S s0.ctrl s0.derivs).V.Vxx.IsSymm := (posSemidef_iff.1 hconv.term).1
  obtain ⟨s2, hb, hl, _⟩ := bwSearch_convex (S := S) hL hw h2 (s := startIter us.length cfg S 1 s0) h0 hconv
  have hl' : s2.lambda = cfg.initialLambda := hl
  have hfr := bwSearch_frame (L := L) (N := us.length) (cfg := cfg) (S := S) (startIter us.length cfg S 1 s0)
  rw [hb] at hfr
  have hcc : s2.ctrl = s0.ctrl := hfr.1
  have hk : ∃ j < us.length, s2.gains.k j ≠ 0 := by
    by_contra hk
    push Not at hk
    obtain ⟨_, h3, _, V, h4, h5, _⟩ := bwSearch_chain hb
    rw [h3] at h4 h5
    refine hst (Stationary.of_at (cfg := cfg) (lim := lim) h2 hF (d := s0.derivs) ?_)
    exact stationary_of_gains hL hw h5 h4 (by rw [h4]; exact hVs) hLs hk
  obtain ⟨a0, ha0, hsucc⟩ := small_step_accepted hL hw hb (by rw [hl']; exact h0) hconv hcons (hF.at h2 _) hk hr
  obtain ⟨G, g1, g2, g3⟩ := expected_ge hL hw hb (by rw [hl']; exact h0) hLs hVs
  have hG : 0 < G := by
    rcases g1.lt_or_eq with h | h
    · exact h
    · obtain ⟨j, hj, hkj⟩ := hk
      exact absurd (g2 h.symm j hj) hkj
  refine ⟨a0, ha0, fun as has hex r hr' => ?_⟩
  set cfg' : Config ℝ := { cfg with alphaList := as } with hcfg
  have hs0' : start P lim dt cfg' t0 scratch x0 us = s0 := rfl
  have hb' : bwSearch L us.length cfg' S (startIter us.length cfg' S 1 s0) = (s2, .ok true) := by
    rw [hcfg, bwSearch_alphaList]; exact hb
  rw [solve_valid (cfg := cfg') hN hd] at hr'
  rw [hr', totalCost_out]
  dsimp only
  rw [totalCost_out]
  -- the first iteration
  have hfirst : (∃ s', procOnce L us.length cfg' S 1 s0 = (s', .ok 1) ∧ s'.ctrl = s0.ctrl ∧ s'.trace.length = 2 ∧
      (∃ e, s'.trace[1]? = some e ∧ e.kRelNorm < cfg.kRelNormThre) ∧ cfg.initialLambda < cfg.lambdaThre) ∨
      totalCost us.length (procOnce L us.length cfg' S 1 s0).1.ctrl < totalCost us.length s0.ctrl := by
    have hout := procOnce_out (L := L) (N := us.length) (cfg := cfg') (S := S) 1 s0
    generalize procOnce L us.length cfg' S 1 s0 = q at hout
    cases hout with
    | bwFail s3 hb3 => rw [hb'] at hb3; cases hb3
    | err s3 e he hb3 => rw [hb'] at hb3; cases hb3; exact absurd rfl (he _)
    | small s3 hb3 hk3 hl3 =>
      rw [hb'] at hb3; cases hb3
      refine .inl ⟨_, rfl, hcc, by simp [hs0, initSolver], ⟨_, by simp [hs0, initSolver]; rfl, ?_⟩, ?_⟩
      · simpa using hk3
      · rw [← hl']; simpa using hl3
    | full s3 hb3 hk3 =>
      rw [hb'] at hb3; cases hb3
      have hls : (lineSearch us.length cfg' S s2).success = true := by
        obtain ⟨a, ha, hle⟩ := hex
        exact lineSearch_exists ⟨a, ha, hsucc a (has a ha).1 hle⟩
      have hq := finishStep_out (N := us.length) (cfg := cfg') s0.trace
        { Trace.new 1 with
          kRelNorm := kRelNorm us.length s2, alpha := (lineSearch us.length cfg' S s2).alpha,
          actual := (lineSearch us.length cfg' S s2).actual, expected := (lineSearch us.length cfg' S s2).expected,
          ratio := (lineSearch us.length cfg' S s2).ratio } (lineSearch us.length cfg' S s2) s2
      generalize finishStep us.length cfg' s0.trace _ (lineSearch us.length cfg' S s2) s2 = q at hq
      cases hq with
      | reject hsu v hv => rw [hls] at hsu; cases hsu
      | accept hsu v hv =>
        right
        obtain ⟨a, hamem, ha⟩ := lineSearch_success hsu
        rw [ha] at hsu
        have hexp : 0 < (tryAlpha us.length cfg' S s2 a).expected := by
          have h3 := g3 a (has a hamem).1.le
          have h4 : 0 < a * (1 - a / 2) * G :=
            mul_pos (mul_pos (has a hamem).1 (by linarith [(has a hamem).2])) hG
          exact lt_of_lt_of_le h4 h3
        have h1 := (tryAlpha_actual hr0 hsu).2 hexp
        rw [(tryAlpha_real s2 a).1, hcc] at h1
        show totalCost us.length (lineSearch us.length cfg' S s2).cand < _
        rw [ha]
        show totalCost us.length (forwardPass us.length S s2.ctrl s2.gains a) < _
        rw [hcc]; linarith
  rcases hfirst with ⟨s', hp, e1, e2, e3, e4⟩ | hlt
  · left
    obtain ⟨k, hk'⟩ : ∃ k, cfg.maxIter.toNat = k + 1 := ⟨cfg.maxIter.toNat - 1, by omega⟩
    have hfinal : final L P lim dt cfg' t0 scratch x0 us = (s', .ok 1) := by
      show optLoop L us.length cfg' S cfg.maxIter.toNat 1 s0 = _
      rw [hk', optLoop, hp]
      simp
    rw [hfinal]
    exact ⟨by simp [Res.map, Res.bind], by rw [e1], e2, e3, e4⟩
  · right
    show totalCost us.length (optLoop L us.length cfg' S cfg.maxIter.toNat 1 s0).1.ctrl < _
    refine optLoop_rule (fun j s => (j = 1 ∧ s = s0) ∨ (1 < j ∧ totalCost us.length s.ctrl < totalCost us.length s0.ctrl))
      (fun q => totalCost us.length q.1.ctrl < totalCost us.length s0.ctrl) _ _ (.inl ⟨rfl, rfl⟩) ?_ ?_ ?_
    · rintro j s s' _ _ (⟨rfl, rfl⟩ | ⟨h1, h3⟩) hp
      · rw [hp] at hlt; exact .inr ⟨by omega, hlt⟩
      · have := procOnce_cost_le (L := L) (N := us.length) (cfg := cfg') (S := S) hr0 j s
        rw [hp] at this
        exact .inr ⟨by omega, lt_of_le_of_lt this h3⟩
    · rintro j s s' e _ _ (⟨rfl, rfl⟩ | ⟨h1, h3⟩) hp _
      · rw [hp] at hlt; exact hlt
      · have := procOnce_cost_le (L := L) (N := us.length) (cfg := cfg') (S := S) hr0 j s
        rw [hp] at this
        exact lt_of_le_of_lt this h3
    · rintro s (⟨h1, _⟩ | ⟨_, h3⟩)
      · omega
      · exact h3

end Nmpc.DDP
