import Verif.Problems.Agree
import Verif.CGMRES.Examples
import Verif.DDP.Examples

/-!
# C134: the three solvers agree on convex linear-quadratic problems without constraints (exact arithmetic)
-/

set_option linter.unusedSectionVars false

namespace Nmpc.Agree

open Matrix Finset
open DDP (timeAt LQProblem IsTrajectory)

variable {n : ℕ} {md : ℝ → ℕ} {p : LQProblem n md} {dt t0 : ℝ} {x0 : Vec n ℝ}
  {L : LLT ℝ} {cfg : DDP.Config ℝ} {lim : Option ((t : ℝ) → Vec (md t) ℝ × Vec (md t) ℝ)} {o : DDP.Obj n ℝ}
  {us : List (Σ k : ℕ, Vec k ℝ)} {scratch : DDP.Scratch n (fun i => md (timeAt t0 dt i)) ℝ}
  {G : FMPC.GainSolver ℝ} {fcfg : FMPC.Config ℝ} {fo : FMPC.Obj n ℝ}
  {sc : FMPC.Scratch n (fun i => md (timeAt t0 dt i)) (fun i => (fun _ : ℝ => 0) (timeAt t0 dt i)) ℝ} {init : FMPC.VarL n ℝ}

/-- **C134**, DDP and FMPC: both calls succeed on the same convex linear-quadratic problem, started from the same state, whatever initial
guesses they are given.  The states and inputs they return are the same lists, and the cost is the same, except when one of them accepts its
starting point at once: DDP because the relative norm of the feedforward is below its threshold, or FMPC because the KKT error of the initial
guess is at most its threshold. -/
theorem C134_ddp_fmpc (hL : L.Exact) (hG : FMPC.ExactGain G) (hp : p.Convex) (hdt : 0 < dt)
    (hw : cfg.withConstraint = false) (h2 : cfg.useSecond = false)
    (hlm : 0 < cfg.lambdaMin) (hk : 0 < cfg.kRelNormThre) (hlt : 0 < cfg.lambdaThre) {as : List ℝ}
    (ha : cfg.alphaList = 1 :: as) (hr : cfg.costUpdateRatioThre < 1) (h0 : cfg.initialLambda = 0)
    (hm : 2 ≤ cfg.maxIter) (hN : (us.length : ℤ) = cfg.horizon) (hd : DDP.DimsOk md t0 dt us)
    (hfU : fcfg.updateBarrierEps = false) (hfl : fcfg.enableLineSearch = false) (hfI : fcfg.initComplementary = false)
    (hft : 0 ≤ fcfg.kktErrorThre) (hfm : 2 ≤ fcfg.maxIter) (hfh : fcfg.horizon = cfg.horizon)
    (hfL : FMPC.LengthsOk fcfg.horizon init) (hfd : FMPC.DimsOk md (fun _ => 0) t0 dt init) (hfn : FMPC.NonNeg init) :
    ∃ r fo', DDP.solve L p.callbacks lim dt cfg o t0 scratch x0 us = (r, .ok true) ∧
      FMPC.solve G (fmpcOf p dt) dt fcfg fo t0 sc x0 init = (fo', .ok .succeeded) ∧
      ((fo'.var.xs = r.control.xs ∧ fo'.var.us = r.control.us) ∨
        (r.control.us = us ∧ ∃ e0 e1, r.trace = [e0, e1] ∧ e1.kRelNorm < cfg.kRelNormThre) ∨
        fo'.trace.length = 1) := by
  have hNn : fcfg.horizon.toNat = us.length := by rw [hfh, ← hN]; rfl
  obtain ⟨hr1, hr2⟩ := DDP.C18_solve (lim := lim) (o := o) (x0 := x0) (scratch := scratch) hL hp hw h2 hlm hk hlt ha hr h0 hm hN hd
  obtain ⟨fo', hf1, hf2⟩ := FMPC.C100_lq (L := G) (P := fmpcOf p dt) (o := fo) (x0 := x0) (sc := sc) (fmpcOf_isLQ fcfg.horizon.toNat)
    (dataOf_convex hp hdt fcfg.horizon.toNat) (fmpcOf_convex hp hdt) hG hdt hfU hfl hfI hft hfm hfL hfd hfn
  refine ⟨_, fo', Prod.ext rfl hr1, hf1, ?_⟩
  rcases hr2 with hmin | hx
  · rcases hf2 with hf2 | ⟨-, v, hv, hv1, hv2⟩
    · exact .inr (.inr hf2)
    · left
      rw [hNn] at hv hv1 hv2
      obtain ⟨e1, e2, -⟩ := agree_core hdt (DDP.C11_trajectory hN hd) hmin hv1 hv2
      rw [hv]
      exact ⟨e1, e2⟩
  · exact .inr (.inl hx)

/-- **C134** with `kkt_error_thre = 0`: the exception for FMPC disappears (if it accepts its initial guess, this is the solution). -/
theorem C134_exact (hL : L.Exact) (hG : FMPC.ExactGain G) (hp : p.Convex) (hdt : 0 < dt)
    (hw : cfg.withConstraint = false) (h2 : cfg.useSecond = false)
    (hlm : 0 < cfg.lambdaMin) (hk : 0 < cfg.kRelNormThre) (hlt : 0 < cfg.lambdaThre) {as : List ℝ}
    (ha : cfg.alphaList = 1 :: as) (hr : cfg.costUpdateRatioThre < 1) (h0 : cfg.initialLambda = 0)
    (hm : 2 ≤ cfg.maxIter) (hN : (us.length : ℤ) = cfg.horizon) (hd : DDP.DimsOk md t0 dt us)
    (hfU : fcfg.updateBarrierEps = false) (hfl : fcfg.enableLineSearch = false) (hfI : fcfg.initComplementary = false)
    (hft : fcfg.kktErrorThre = 0) (hfm : 2 ≤ fcfg.maxIter) (hfh : fcfg.horizon = cfg.horizon)
    (hfL : FMPC.LengthsOk fcfg.horizon init) (hfd : FMPC.DimsOk md (fun _ => 0) t0 dt init) (hfn : FMPC.NonNeg init) :
    ∃ r fo', DDP.solve L p.callbacks lim dt cfg o t0 scratch x0 us = (r, .ok true) ∧
      FMPC.solve G (fmpcOf p dt) dt fcfg fo t0 sc x0 init = (fo', .ok .succeeded) ∧
      ((fo'.var.xs = r.control.xs ∧ fo'.var.us = r.control.us) ∨
        (r.control.us = us ∧ ∃ e0 e1, r.trace = [e0, e1] ∧ e1.kRelNorm < cfg.kRelNormThre)) := by
  have hNn : fcfg.horizon.toNat = us.length := by rw [hfh, ← hN]; rfl
  obtain ⟨r, fo', hr1, hf1, -⟩ := C134_ddp_fmpc (lim := lim) (o := o) (fo := fo) (x0 := x0) (scratch := scratch) (sc := sc) hL hG hp hdt hw h2
    hlm hk hlt ha hr h0 hm hN hd hfU hfl hfI hft.ge hfm hfh hfL hfd hfn
  refine ⟨r, fo', hr1, hf1, ?_⟩
  obtain ⟨-, hr2⟩ := DDP.C18_solve (lim := lim) (o := o) (x0 := x0) (scratch := scratch) hL hp hw h2 hlm hk hlt ha hr h0 hm hN hd
  have htr := DDP.C11_trajectory (P := p.callbacks) (L := L) (lim := lim) (o := o) (x0 := x0) (scratch := scratch) hN hd
  rw [hr1] at hr2 htr
  refine hr2.imp_left fun hmin => ?_
  have hpos : init.Pos := by
    constructor
    · intro e he j
      obtain ⟨i, hi, rfl⟩ := List.getElem_of_mem he
      have := hfd.2.1 i hi
      exact (FMPC.fin_elim this j).elim
    · intro e he j
      obtain ⟨i, hi, rfl⟩ := List.getElem_of_mem he
      have := hfd.2.2 i hi
      exact (FMPC.fin_elim this j).elim
  obtain ⟨v, hv, hv1, hv2⟩ := FMPC.C100_optimal (fmpcOf_convex hp hdt) hdt.le (.inr hpos) hft hf1
  rw [hNn] at hv hv1 hv2
  obtain ⟨e1, e2, -⟩ := agree_core hdt htr hmin hv1 hv2
  rw [hv]
  exact ⟨e1, e2⟩

section Cgmres
variable {m N : ℕ} {q : LQProblem n (fun _ => m)} {f : Vec n ℝ → Vec m ℝ → Vec n ℝ} {l : Vec n ℝ → Vec m ℝ → ℝ} {φ : Vec n ℝ → ℝ}
  {P : Cgmres.Problem n m ℝ}

/-- **C134**, C/GMRES: the equations that C/GMRES tracks (`∂H/∂u = 0` at every stage, Euler integration, time-invariant problem) hold at the
inputs `U` exactly if `U` are the inputs of the cheapest trajectory of the discretised problem. -/
theorem C134_cgmres (hP : Cgmres.Derived P f l φ) (ccfg : Cgmres.Config ℝ) (t : ℝ)
    (hh : ccfg.steadyHorizon * (1 - Real.exp (-(ccfg.increaseRatio * t))) / N ≠ 0)
    (H : EulerOf q f l φ (ccfg.steadyHorizon * (1 - Real.exp (-(ccfg.increaseRatio * t))) / N)) (hq : q.Convex)
    {d : DDP.ControlData n ℝ} (hd : IsTrajectory q.callbacks t0 dt N x0 d)
    (hmin : ∀ d', IsTrajectory q.callbacks t0 dt N x0 d' → d.costs.sum ≤ d'.costs.sum ∧ (d'.costs.sum = d.costs.sum → d' = d))
    (U : Fin N → Vec m ℝ) :
    Cgmres.dhduList P Cgmres.eulerOde ccfg t x0 U = 0 ↔ d.us = List.ofFn fun i => (⟨m, U i⟩ : Σ k : ℕ, Vec k ℝ) := by
  set h := ccfg.steadyHorizon * (1 - Real.exp (-(ccfg.increaseRatio * t))) / N with hdef
  have hus : ∀ U : Fin N → Vec m ℝ, ((ctrlOf q t0 dt N (Cgmres.eulerState f h x0 (Cgmres.colAt U)) (Cgmres.colAt U)).out N).us =
      List.ofFn fun i => (⟨m, U i⟩ : Σ k : ℕ, Vec k ℝ) := by
    intro U
    apply List.ext_getElem (by simp [DDP.Ctrl.out])
    intro i h1 h2
    have : i < N := by simpa [DDP.Ctrl.out] using h1
    simp [DDP.Ctrl.out, ctrlOf, Cgmres.colAt, this]
  have htr : ∀ U : Fin N → Vec m ℝ, IsTrajectory q.callbacks t0 dt N x0
      ((ctrlOf q t0 dt N (Cgmres.eulerState f h x0 (Cgmres.colAt U)) (Cgmres.colAt U)).out N) := fun U => DDP.out_isTrajectory (H.consistent U)
  obtain ⟨D, hD, hDV⟩ := Cgmres.C51_gradient hP ccfg t x0 U
  rw [← hdef] at hD hDV
  -- a trajectory is determined by its inputs
  have hex : ∃ W : Fin N → Vec m ℝ, d = (ctrlOf q t0 dt N (Cgmres.eulerState f h x0 (Cgmres.colAt W)) (Cgmres.colAt W)).out N := by
    obtain ⟨c, hc, rfl⟩ := hd.exists_ctrl (lim := none)
    refine ⟨fun i => c.u i, ?_⟩
    have hx : ∀ i ≤ N, c.x i = Cgmres.eulerState f h x0 (Cgmres.colAt fun i : Fin N => c.u i) i := by
      intro i
      induction i with
      | zero => intro _; exact hc.start
      | succ i ih =>
        intro hi
        rw [hc.step i (by omega), Cgmres.eulerState, ← ih (by omega)]
        have : Cgmres.colAt (fun i : Fin N => c.u i) i = c.u i := by simp [Cgmres.colAt, show i < N by omega]
        rw [this]
        exact H.state _ _ _
    have hu : ∀ i < N, c.u i = Cgmres.colAt (fun i : Fin N => c.u i) i := fun i hi => by simp [Cgmres.colAt, hi]
    refine DDP.out_congr hx hu fun i hi => ?_
    rcases Nat.lt_or_eq_of_le hi with hi' | rfl
    · rw [hc.run i hi']
      simp only [ctrlOf, if_pos hi']
      rw [← hx i hi, ← hu i hi']
      rfl
    · rw [hc.term]
      simp only [ctrlOf, lt_irrefl, if_false]
      rw [← hx i hi]
      rfl
  constructor
  · intro h0
    have hD0 : D = 0 := by
      ext V
      rw [hDV, h0]
      simp
    have hmin2 : ∀ W : Fin N → Vec m ℝ, Cgmres.horizonCost f l φ h x0 U ≤ Cgmres.horizonCost f l φ h x0 W := by
      intro W
      have hline : HasDerivAt (fun s : ℝ => Cgmres.horizonCost f l φ h x0 (U + s • (W - U))) 0 0 := by
        have hg : HasDerivAt (fun s : ℝ => U + s • (W - U)) (W - U) 0 := by
          have := ((hasDerivAt_id (0 : ℝ)).smul_const (W - U)).const_add U
          simpa using this
        have hD' : HasFDerivAt (Cgmres.horizonCost f l φ h x0) D (U + (0 : ℝ) • (W - U)) := by simpa using hD
        have := hD'.comp_hasDerivAt (0 : ℝ) hg
        rw [hD0] at this
        exact this
      have := FMPC.tangent_le (H.convexOn (x0 := x0) (N := N) hq) hline
      rwa [add_zero] at this
    obtain ⟨W, hW⟩ := hex
    have h1 := (hmin _ (htr U))
    have h2 := h1.2 (le_antisymm (by rw [hW, H.cost, H.cost]; exact hmin2 W) h1.1)
    rw [← h2, hus]
  · intro h0
    obtain ⟨W, hW⟩ := hex
    have hWU : W = U := by
      rw [hW, hus] at h0
      have := List.ofFn_injective h0
      funext i
      have := congrFun this i
      simpa using this
    subst hWU
    have hloc : IsLocalMin (Cgmres.horizonCost f l φ h x0) W :=
      Filter.Eventually.of_forall fun V => by
        have := (hmin _ (htr V)).1
        rwa [hW, H.cost, H.cost] at this
    have hD0 := hloc.hasFDerivAt_eq_zero hD
    funext i j
    have := hDV (Pi.single i (Pi.single j 1))
    rw [hD0, _root_.zero_apply, Finset.sum_eq_single i] at this
    · rw [Pi.single_eq_same, dotProduct_single_one] at this
      exact (mul_eq_zero.1 this.symm).resolve_left hh
    · intro b _ hb
      rw [Pi.single_eq_of_ne hb, dotProduct_zero, mul_zero]
    · intro hi
      exact (hi (mem_univ i)).elim

/-- **C134**, all three solvers on the Euler discretisation of one time-invariant convex linear-quadratic problem: DDP and FMPC (with
`kkt_error_thre = 0`) succeed, and unless DDP accepts its initial inputs at once they return the same states and inputs; the equations that
C/GMRES tracks hold at these inputs and at no others. -/
theorem C134_all {us : List (Σ k : ℕ, Vec k ℝ)} {scratch : DDP.Scratch n (fun i => (fun _ : ℝ => m) (timeAt t0 dt i)) ℝ}
    {lim : Option ((t : ℝ) → Vec m ℝ × Vec m ℝ)}
    {sc : FMPC.Scratch n (fun i => (fun _ : ℝ => m) (timeAt t0 dt i)) (fun i => (fun _ : ℝ => 0) (timeAt t0 dt i)) ℝ}
    (hP : Cgmres.Derived P f l φ) (ccfg : Cgmres.Config ℝ) (t : ℝ)
    (hh : ccfg.steadyHorizon * (1 - Real.exp (-(ccfg.increaseRatio * t))) / us.length ≠ 0)
    (H : EulerOf q f l φ (ccfg.steadyHorizon * (1 - Real.exp (-(ccfg.increaseRatio * t))) / us.length)) (hq : q.Convex)
    (hL : L.Exact) (hG : FMPC.ExactGain G) (hdt : 0 < dt)
    (hw : cfg.withConstraint = false) (h2 : cfg.useSecond = false)
    (hlm : 0 < cfg.lambdaMin) (hk : 0 < cfg.kRelNormThre) (hlt : 0 < cfg.lambdaThre) {as : List ℝ}
    (ha : cfg.alphaList = 1 :: as) (hr : cfg.costUpdateRatioThre < 1) (h0 : cfg.initialLambda = 0)
    (hm : 2 ≤ cfg.maxIter) (hN : (us.length : ℤ) = cfg.horizon) (hd : DDP.DimsOk (fun _ => m) t0 dt us)
    (hfU : fcfg.updateBarrierEps = false) (hfl : fcfg.enableLineSearch = false) (hfI : fcfg.initComplementary = false)
    (hft : fcfg.kktErrorThre = 0) (hfm : 2 ≤ fcfg.maxIter) (hfh : fcfg.horizon = cfg.horizon)
    (hfL : FMPC.LengthsOk fcfg.horizon init) (hfd : FMPC.DimsOk (fun _ => m) (fun _ => 0) t0 dt init) (hfn : FMPC.NonNeg init) :
    ∃ r fo', DDP.solve L q.callbacks lim dt cfg o t0 scratch x0 us = (r, .ok true) ∧
      FMPC.solve G (fmpcOf q dt) dt fcfg fo t0 sc x0 init = (fo', .ok .succeeded) ∧
      ((fo'.var.xs = r.control.xs ∧ fo'.var.us = r.control.us ∧
          ∀ U : Fin us.length → Vec m ℝ, Cgmres.dhduList P Cgmres.eulerOde ccfg t x0 U = 0 ↔
            r.control.us = List.ofFn fun i => (⟨m, U i⟩ : Σ k : ℕ, Vec k ℝ)) ∨
        (r.control.us = us ∧ ∃ e0 e1, r.trace = [e0, e1] ∧ e1.kRelNorm < cfg.kRelNormThre)) := by
  obtain ⟨r, fo', hr1, hf1, hx⟩ := C134_exact (lim := lim) (o := o) (fo := fo) (x0 := x0) (scratch := scratch) (sc := sc) hL hG hq hdt hw h2
    hlm hk hlt ha hr h0 hm hN hd hfU hfl hfI hft hfm hfh hfL hfd hfn
  refine ⟨r, fo', hr1, hf1, ?_⟩
  obtain ⟨-, hr2⟩ := DDP.C18_solve (lim := lim) (o := o) (x0 := x0) (scratch := scratch) hL hq hw h2 hlm hk hlt ha hr h0 hm hN hd
  have htr := DDP.C11_trajectory (P := q.callbacks) (L := L) (lim := lim) (o := o) (x0 := x0) (scratch := scratch) hN hd
  rw [hr1] at hr2 htr
  rcases hr2 with hmin | hr2
  · rcases hx with ⟨e1, e2⟩ | hx
    · exact .inl ⟨e1, e2, C134_cgmres hP ccfg t hh H hq htr hmin⟩
    · exact .inr hx
  · exact .inr hr2

end Cgmres

/-! ## A case -/

/-- `x' = x + h u`, cost `Σ h (x² + u²) / 2 + x_N² / 2`. -/
noncomputable def scalarEuler (h : ℝ) : LQProblem 1 (fun _ => 1) where
  A _ := 1
  B _ := h • (1 : Mat 1 1 ℝ)
  c _ := 0
  Q _ := h • (1 : Mat 1 1 ℝ)
  M _ := 0
  R _ := h • (1 : Mat 1 1 ℝ)
  q _ := 0
  r _ := 0
  e _ := 0
  Qf _ := 1
  qf _ := 0
  ef _ := 0
  symmQ _ := isSymm_one.smul _
  symmR _ := isSymm_one.smul _
  symmQf _ := isSymm_one

theorem scalarEuler_convex {h : ℝ} (hh : 0 < h) : (scalarEuler h).Convex where
  stage t x u := by
    simp only [scalarEuler, smul_mulVec, one_mulVec, zero_mulVec, dotProduct_zero, mul_zero, add_zero, dotProduct_smul, smul_eq_mul,
      ← mul_add]
    exact mul_nonneg hh.le (add_nonneg (dot_self_nonneg x) (dot_self_nonneg u))
  input t := PosDef.one.smul hh
  term t := PosSemidef.one

theorem scalarEuler_euler (h : ℝ) : EulerOf (scalarEuler h) (fun _ u => u) Cgmres.lqCost (fun x => x 0 * x 0 / 2) h where
  state t x u := by
    simp only [LQProblem.callbacks, scalarEuler, one_mulVec, smul_mulVec, add_zero]
  run t x u := by
    simp [LQProblem.callbacks, scalarEuler, Cgmres.lqCost, smul_mulVec, dotProduct]
    ring
  term t x := by
    simp [LQProblem.callbacks, scalarEuler, dotProduct]
    ring

/-- C134 for this problem with three stages, the default parameters of C/GMRES at the time 1, any initial state and any initial guesses. -/
example (o : DDP.Obj 1 ℝ) (fo : FMPC.Obj 1 ℝ) (x0 : Vec 1 ℝ) (a b c : ℝ)
    (scratch : DDP.Scratch 1 (fun i => (fun _ : ℝ => 1) (timeAt 0 1 i)) ℝ)
    (sc : FMPC.Scratch 1 (fun i => (fun _ : ℝ => 1) (timeAt 0 1 i)) (fun i => (fun _ : ℝ => 0) (timeAt 0 1 i)) ℝ)
    (y0 y1 y2 y3 l0 l1 l2 l3 : Vec 1 ℝ) :
    let q := scalarEuler (1 * (1 - Real.exp (-(1 / 2 * 1))) / 3)
    let init : FMPC.VarL 1 ℝ := ⟨[y0, y1, y2, y3], DDP.exInputs a b c, [l0, l1, l2, l3], [⟨0, 0⟩, ⟨0, 0⟩, ⟨0, 0⟩], [⟨0, 0⟩, ⟨0, 0⟩, ⟨0, 0⟩]⟩
    ∃ r fo', DDP.solve exactLLT q.callbacks none 1 DDP.exConfig0 o 0 scratch x0 (DDP.exInputs a b c) = (r, .ok true) ∧
      FMPC.solve FMPC.realGain (fmpcOf q 1) 1 { (FMPC.defaultConfig 3 10 : FMPC.Config ℝ) with updateBarrierEps := false, kktErrorThre := 0 } fo 0 sc x0 init =
        (fo', .ok .succeeded) ∧
      ((fo'.var.xs = r.control.xs ∧ fo'.var.us = r.control.us ∧
          ∀ U : Fin 3 → Vec 1 ℝ, Cgmres.dhduList Cgmres.lq Cgmres.eulerOde Cgmres.defaultConfig 1 x0 U = 0 ↔
            r.control.us = List.ofFn fun i => (⟨1, U i⟩ : Σ k : ℕ, Vec k ℝ)) ∨
        (r.control.us = DDP.exInputs a b c ∧ ∃ e0 e1, r.trace = [e0, e1] ∧ e1.kRelNorm < DDP.exConfig0.kRelNormThre)) := by
  intro q init
  have hpos : (0 : ℝ) < 1 * (1 - Real.exp (-(1 / 2 * 1))) / 3 := by
    have : Real.exp (-(1 / 2 * 1)) < 1 := Real.exp_lt_one_iff.2 (by norm_num)
    have : (0 : ℝ) < 1 - Real.exp (-(1 / 2 * 1)) := by linarith
    positivity
  have hh : (Cgmres.defaultConfig : Cgmres.Config ℝ).steadyHorizon *
      (1 - Real.exp (-((Cgmres.defaultConfig : Cgmres.Config ℝ).increaseRatio * 1))) / ((DDP.exInputs a b c).length : ℕ) =
      1 * (1 - Real.exp (-(1 / 2 * 1))) / 3 := by
    simp [Cgmres.defaultConfig, DDP.exInputs]
  have hdims : ∀ (g : List (Σ k : ℕ, Vec k ℝ)) (k : ℕ), g.length = 3 → (∀ e ∈ g, e.1 = k) →
      ∀ i (h : i < g.length), g[i].1 = k := fun g k _ h i hi => h _ (List.getElem_mem hi)
  refine C134_all (q := q) Cgmres.lq_derived Cgmres.defaultConfig 1 (by rw [hh]; exact hpos.ne') (by rw [hh]; exact scalarEuler_euler _)
    (scalarEuler_convex hpos) exactLLT_exact FMPC.realGain_exact one_pos rfl rfl
    (by simp only [DDP.exConfig0, DDP.exConfig, DDP.defaultConfig, lit_real]; norm_num)
    (by simp only [DDP.exConfig0, DDP.exConfig, DDP.defaultConfig, lit_real]; norm_num)
    (by simp only [DDP.exConfig0, DDP.exConfig, DDP.defaultConfig, lit_real]; norm_num) (as := [1 / 2]) rfl
    (by simp only [DDP.exConfig0, DDP.exConfig, DDP.defaultConfig, lit_real]; norm_num) rfl
    (by simp [DDP.exConfig0, DDP.exConfig, DDP.defaultConfig]) (DDP.exLen0 _ _ _) (DDP.exDims _ _ _) rfl rfl rfl rfl
    (by simp [FMPC.defaultConfig]) rfl ?_ ⟨?_, ?_, ?_⟩ ⟨?_, ?_⟩
  · simp [FMPC.LengthsOk, init, FMPC.defaultConfig, DDP.exInputs]
  · exact hdims _ 1 rfl (by simp [DDP.exInputs, init])
  · exact hdims _ 0 rfl (by simp [init])
  · exact hdims _ 0 rfl (by simp [init])
  · simp [init]
  · simp [init]

end Nmpc.Agree
