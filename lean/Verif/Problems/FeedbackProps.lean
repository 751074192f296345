import Verif.Problems.Feedback
import Verif.Problems.AgreeProps

/-!
# C135: what the state feedback of the FMPC simulation costs (exact arithmetic)
-/

set_option linter.unusedSectionVars false

namespace Nmpc.Agree

open Matrix Finset
open DDP (timeAt LQProblem)
open FMPC (FeasibleTraj trajCost SimCtrl)

section Policy
variable {n : ℕ} {md : ℝ → ℕ} {p : LQProblem n md} {dt t0 : ℝ} {x0 : Vec n ℝ} {N : ℕ} {L : FMPC.GainSolver ℝ} {cfg : FMPC.Config ℝ}

/-- **C135**, the gain.  One iteration of FMPC on a convex linear-quadratic problem without inequalities, at the state `x0`.  Let `u` be the
first input of its plan and `K` the gain of the first step.  For every state `x'`: the input `u + K (x' - x0)` is the first input of a
cheapest trajectory from `x'` and of every such trajectory; if instead `u` is applied (no feedback) and all later inputs are chosen as well as
possible, the cost is `e` higher; with `u - K (x' - x0)` (opposite sign) it is `4 e` higher.  `e` is zero only if the feedback vanishes. -/
theorem C135_policy (hL : FMPC.ExactGain L) (hp : p.Convex) (hdt : 0 < dt) (hN : 0 < N) (hls : cfg.enableLineSearch = false) {iter : ℕ}
    {w w1 : FMPC.Solver n (fun i => md (timeAt t0 dt i)) (fun i => (fun _ : ℝ => 0) (timeAt t0 dt i)) ℝ}
    (h : FMPC.procOnce L N cfg (FMPC.stagesOf (fmpcOf p dt) t0 dt N) x0 iter w = .ok (w1, .iterationContinued)) (x' : Vec n ℝ) :
    ∃ a e : ℝ, 0 ≤ e ∧ (e = 0 ↔ (w1.coeff 0).K *ᵥ (x' - x0) = 0) ∧
      IsLeast (costsFrom (fmpcOf p dt) t0 dt N x') a ∧
      (∀ v, a ∈ costsWith (fmpcOf p dt) t0 dt N x' v ↔ v = w1.var.u 0 + (w1.coeff 0).K *ᵥ (x' - x0)) ∧
      IsGLB (costsWith (fmpcOf p dt) t0 dt N x' (w1.var.u 0)) (a + e) ∧
      IsGLB (costsWith (fmpcOf p dt) t0 dt N x' (w1.var.u 0 - (w1.coeff 0).K *ᵥ (x' - x0))) (a + 4 * e) := by
  obtain ⟨-, hx⟩ := policy_optimal hL hp hdt hls h
  obtain ⟨y, z, hy, hz, hmin⟩ := hx x'
  set u := w1.var.u 0 with hu
  set k := (w1.coeff 0).K *ᵥ (x' - x0) with hk
  have hg := glb_with hp hdt hy hmin
  have h1 : u - z 0 = (-1 : ℝ) • k := by rw [hz]; module
  have h2 : u - k - z 0 = (-2 : ℝ) • k := by rw [hz]; module
  have e1 := growth_smul (t0 := t0) (dt := dt) (N := N) (s := -1) hp k (by norm_num)
  have e2 := growth_smul (t0 := t0) (dt := dt) (N := N) (s := -2) hp k (by norm_num)
  have g1 := hg u
  have g2 := hg (u - k)
  rw [h1, e1] at g1
  rw [h2, e2] at g2
  have hge : 0 ≤ sInf (growthSet p t0 dt N k) := by
    refine le_csInf (growthSet_nonempty k) ?_
    rintro _ ⟨a, b, -, -, rfl⟩
    exact quadCost_nonneg hp a b
  refine ⟨trajCost (fmpcOf p dt) t0 dt N y z, sInf (growthSet p t0 dt N k), hge, growth_zero_iff hp hN k, ⟨⟨y, z, hy, rfl⟩, ?_⟩, ?_, ?_, ?_⟩
  · rintro _ ⟨y', z', hy', rfl⟩
    exact hmin y' z' hy'
  · intro v
    constructor
    · intro hv
      have h3 := (hg v).1 hv
      have h4 : sInf (growthSet p t0 dt N (v - z 0)) ≤ 0 := by linarith
      have h5 : 0 ≤ sInf (growthSet p t0 dt N (v - z 0)) := by
        refine le_csInf (growthSet_nonempty _) ?_
        rintro _ ⟨a, b, -, -, rfl⟩
        exact quadCost_nonneg hp a b
      have h6 := (growth_zero_iff hp hN _).1 (le_antisymm h4 h5)
      rw [← hz]
      exact sub_eq_zero.1 h6
    · rintro rfl
      exact ⟨y, z, hy, hz, rfl⟩
  · have : (-1 : ℝ) ^ 2 * sInf (growthSet p t0 dt N k) = sInf (growthSet p t0 dt N k) := by ring
    rwa [this] at g1
  · have : (-2 : ℝ) ^ 2 * sInf (growthSet p t0 dt N k) = 4 * sInf (growthSet p t0 dt N k) := by ring
    rwa [this] at g2

end Policy

/-- The first iteration on such a problem either accepts the start or is followed by an accepting one, which keeps plan and gains. -/
theorem two_iterations {n : ℕ} {m p : ℕ → ℕ} {S : FMPC.Stages n m p ℝ} {D : FMPC.LQData n m} {N : ℕ} {L : FMPC.GainSolver ℝ}
    {cfg : FMPC.Config ℝ} {x0 : Vec n ℝ} (h : FMPC.IsLQ S D) (hD : D.Convex N) (hL : FMPC.ExactGain L) (hdt : 0 < S.dt)
    (hU : cfg.updateBarrierEps = false) (hls : cfg.enableLineSearch = false) (hth : 0 ≤ cfg.kktErrorThre)
    {w0 w : FMPC.Solver n m p ℝ} {st : FMPC.Status} (h0 : w0.trace = []) (hr : FMPC.runSolver L N cfg S x0 w0 = .ok (w, st))
    (ht : w.trace.length = 2) :
    ∃ w1, FMPC.procOnce L N cfg S x0 1 w0 = .ok (w1, .iterationContinued) ∧ w.var = w1.var ∧ ∀ i, (w.coeff i).K = (w1.coeff i).K := by
  unfold FMPC.runSolver at hr
  have hq : ∃ st', FMPC.optLoop L N cfg S x0 cfg.maxIter.toNat 1 .uninitialized w0 = .ok (w, st') := by
    generalize FMPC.optLoop L N cfg S x0 cfg.maxIter.toNat 1 .uninitialized w0 = r at hr
    cases r with
    | ok q =>
      rw [Res.bind_ok] at hr
      split at hr
      · cases hr
      · cases hr; exact ⟨q.2, rfl⟩
    | _ => cases hr
  obtain ⟨st', hq⟩ := hq
  generalize cfg.maxIter.toNat = r at hq
  cases r with
  | zero =>
    unfold FMPC.optLoop at hq
    cases hq
    rw [h0] at ht; cases ht
  | succ r =>
    obtain ⟨w1, st1, h1, h2⟩ := FMPC.lq_first (x0 := x0) (L := L) (cfg := cfg) h hD hL hdt hU hls 1 w0
    obtain ⟨e1, -, -, ht1, -⟩ := FMPC.procOnce_frame h1
    have ht1' : w1.trace.length = 1 := by rw [ht1, h0]; rfl
    unfold FMPC.optLoop at hq
    rw [h1, Res.bind_ok] at hq
    rcases h2 with rfl | ⟨rfl, hk⟩
    · rw [if_pos (by simp)] at hq
      cases hq
      omega
    · rw [if_neg (by simp)] at hq
      refine ⟨w1, h1, ?_⟩
      cases r with
      | zero =>
        unfold FMPC.optLoop at hq
        cases hq
        dsimp only at ht
        omega
      | succ r =>
        unfold FMPC.optLoop at hq
        have hk' : ∀ e, leb (FMPC.kktOf N x0 (FMPC.prepared N S w1 e)) cfg.kktErrorThre = true := by
          intro e; rw [hk e, leb_real]; exact hth
        have hout := FMPC.procOnce_out (L := L) (N := N) (cfg := cfg) (S := S) (x0 := x0) (1 + 1) w1
        dsimp only at hq
        generalize hx : FMPC.procOnce L N cfg S x0 (1 + 1) w1 = x at hout hq
        cases hout with
        | ubEps hp => cases hq
        | succeeded e he hk2 =>
          rw [Res.bind_ok, if_pos (by simp)] at hq
          cases hq
          refine ⟨rfl, fun i => ?_⟩
          show ((if i < N then FMPC.calcCoeff S w1.var i (w1.coeff i) else w1.coeff i)).K = _
          split <;> rfl
        | backward e he hk2 => rw [hk' e] at hk2; cases hk2
        | forward e he hk2 => rw [hk' e] at hk2; cases hk2
        | update e he hk2 => rw [hk' e] at hk2; cases hk2

section Sim
variable {n m : ℕ} {q : ℝ → LQProblem n (fun _ => m)} {dt : ℝ} {L : FMPC.GainSolver ℝ} {cfg : FMPC.Config ℝ}
  {scr : ℕ → FMPC.Scratch n (fun _ => m) (fun _ => 0) ℝ}

/-- **C135**, the simulation.  If the timer callback of the FMPC simulation, with a convex linear-quadratic problem without inequalities,
returns after the solver has run its iteration (it did not accept the warm start at once), then the input the simulation applies at a state
`x'` costs exactly four times as much, compared with the optimum from `x'`, as applying the planned input without any feedback. -/
theorem C135_simulation (hL : FMPC.ExactGain L) (hq : ∀ ref, (q ref).Convex) (hdt : 0 < dt) (hN : 0 < cfg.horizon)
    (hU : cfg.updateBarrierEps = false) (hls : cfg.enableLineSearch = false) (hI : cfg.initComplementary = false)
    (hth : 0 ≤ cfg.kktErrorThre) {ref t : ℝ} {x : Vec n ℝ} {c c' : SimCtrl n m ℝ}
    (h : FMPC.timerCallback L (fun r => fmpcOf (q r) dt) dt cfg scr ref t x c = .ok c') (ht : c'.obj.trace.length = 2) (x' : Vec n ℝ) :
    c'.planX = x ∧ ∃ a e : ℝ, 0 ≤ e ∧ (e = 0 ↔ c'.K *ᵥ (x' - x) = 0) ∧
      IsLeast (costsFrom (fmpcOf (q ref) dt) t dt cfg.horizon.toNat x') a ∧
      (∀ v, a ∈ costsWith (fmpcOf (q ref) dt) t dt cfg.horizon.toNat x' v ↔ v = c'.u + c'.K *ᵥ (x' - x)) ∧
      IsGLB (costsWith (fmpcOf (q ref) dt) t dt cfg.horizon.toNat x' c'.u) (a + e) ∧
      IsGLB (costsWith (fmpcOf (q ref) dt) t dt cfg.horizon.toNat x' (FMPC.appliedInput c' x')) (a + 4 * e) := by
  unfold FMPC.timerCallback at h
  dsimp only at h
  generalize hs : FMPC.solve L (fmpcOf (q ref) dt) dt cfg c.obj t (scr c.calls) x c.var = r at h
  obtain ⟨o', res⟩ := r
  cases res with
  | ok st =>
    obtain ⟨v, w, hv, hck, hr, rfl⟩ := FMPC.solve_ok hs
    unfold FMPC.startVar at hv
    obtain rfl : c.var = v := by rw [hI] at hv; simpa using hv
    have hK : FMPC.firstGain L (fmpcOf (q ref) dt) dt cfg c.obj t (scr c.calls) x c.var = .ok (w.coeff 0).K := by
      unfold FMPC.firstGain
      rw [hv, Res.bind_ok]
      erw [hr]
      rfl
    have hlen : c.var.us.length = cfg.horizon.toNat := by
      have := ((FMPC.checkVariable_iff c.var).2.2.1 hck).1.2.1
      omega
    erw [hK] at h
    simp only [Res.bind_ok] at h
    have hNp : 0 < c.var.us.length := by omega
    have hu0 : (w.var.out c.var.us.length).us[(0 : ℕ)]? = some ⟨m, w.var.u 0⟩ := by
      simp [FMPC.Var.out, hNp]
    have hx0 : (w.var.out c.var.us.length).xs[(0 : ℕ)]? = some (w.var.x 0) := by
      simp [FMPC.Var.out]
    rw [hu0, hx0] at h
    simp only [dite_true] at h
    cases h
    obtain ⟨w1, hw1, hvar, hcoe⟩ := two_iterations (fmpcOf_isLQ (p := q ref) (t0 := t) (dt := dt) c.var.us.length)
      (dataOf_convex (hq ref) hdt c.var.us.length) hL (show 0 < (FMPC.stagesOf (fmpcOf (q ref) dt) t dt c.var.us.length).dt from hdt)
      hU hls hth (by rfl) hr ht
    have hpl := (policy_optimal hL (hq ref) hdt hls hw1).1
    obtain ⟨a, e, h1, h2, h3, h4, h5, h6⟩ := C135_policy hL (hq ref) hdt hNp hls hw1 x'
    rw [← hlen]
    rw [hvar] at *
    have hK1 : (w.coeff 0).K = (w1.coeff 0).K := hcoe 0
    refine ⟨hpl, a, e, h1, ?_, h3, ?_, h5, ?_⟩
    · show e = 0 ↔ (w.coeff 0).K *ᵥ (x' - x) = 0
      rw [hK1]; exact h2
    · show ∀ v, a ∈ costsWith (fmpcOf (q ref) dt) t dt c.var.us.length x' v ↔ v = w1.var.u 0 + (w.coeff 0).K *ᵥ (x' - x)
      rw [hK1]; exact h4
    · have : w1.var.u 0 + FOps.mulVec (w.coeff 0).K (w1.var.x 0 - x') = w1.var.u 0 - (w1.coeff 0).K *ᵥ (x' - x) := by
        rw [hK1, hpl, mulVec_real, mulVec_sub, mulVec_sub]
        abel
      show IsGLB (costsWith (fmpcOf (q ref) dt) t dt c.var.us.length x' (w1.var.u 0 + FOps.mulVec (w.coeff 0).K (w1.var.x 0 - x'))) _
      rw [this]
      exact h6
  | _ => cases h

/-- With `kkt_error_thre = 0`, a start whose first state differs from the measured one is not accepted at once. -/
theorem trace_two (hL : FMPC.ExactGain L) (hq : ∀ ref, (q ref).Convex) (hdt : 0 < dt) (hU : cfg.updateBarrierEps = false)
    (hls : cfg.enableLineSearch = false) (hI : cfg.initComplementary = false) (hth : cfg.kktErrorThre = 0) (hm : 2 ≤ cfg.maxIter)
    {ref t : ℝ} {x : Vec n ℝ} {c c' : SimCtrl n m ℝ} (hx : c.var.xs[(0 : ℕ)]? ≠ some x)
    (h : FMPC.timerCallback L (fun r => fmpcOf (q r) dt) dt cfg scr ref t x c = .ok c') : c'.obj.trace.length = 2 := by
  unfold FMPC.timerCallback at h
  dsimp only at h
  generalize hs : FMPC.solve L (fmpcOf (q ref) dt) dt cfg c.obj t (scr c.calls) x c.var = r at h
  obtain ⟨o', res⟩ := r
  cases res with
  | ok st =>
    obtain ⟨v, w, hv, hck, hr, rfl⟩ := FMPC.solve_ok hs
    unfold FMPC.startVar at hv
    obtain rfl : c.var = v := by rw [hI] at hv; simpa using hv
    obtain ⟨K, hK⟩ := FMPC.firstGain_ok hs
    erw [hK] at h
    simp only [Res.bind_ok] at h
    have hobj : c'.obj.trace = w.trace := by
      split at h
      · split at h
        · cases h; rfl
        · cases h
      · cases h
    rw [hobj]
    set S := FMPC.stagesOf (fmpcOf (q ref) dt) t dt c.var.us.length with hS
    have hQ : FMPC.IsLQ S (dataOf (q ref) t dt c.var.us.length) := fmpcOf_isLQ _
    have hD := dataOf_convex (t0 := t) (hq ref) hdt c.var.us.length
    generalize hw0 : FMPC.initSolver c.var (FMPC.startEps cfg c.obj) (scr c.calls) = w0 at hr
    have hne : w0.var.x 0 ≠ x := by
      subst hw0
      intro h1
      apply hx
      have hl := ((FMPC.checkVariable_iff c.var).2.2.1 hck).1.1
      have hl2 := ((FMPC.checkVariable_iff c.var).2.2.1 hck).1.2.1
      have hl' : 0 < c.var.xs.length := by omega
      change FMPC.stateAt c.var.xs 0 = x at h1
      unfold FMPC.stateAt at h1
      rw [List.getElem?_eq_getElem hl'] at h1 ⊢
      exact congrArg some h1
    have h0 : w0.trace = [] := by subst hw0; rfl
    obtain ⟨w1, st1, h1, h2⟩ := FMPC.lq_first (x0 := x) (L := L) (cfg := cfg) hQ hD hL (show 0 < S.dt from hdt) hU hls 1 w0
    obtain ⟨e1, -, -, ht1, -, hst, -⟩ := FMPC.procOnce_frame h1
    have ht1' : w1.trace.length = 1 := by rw [ht1, h0]; rfl
    rcases h2 with rfl | ⟨rfl, hk⟩
    · exfalso
      have h3 := hst.1 rfl
      rw [leb_real, hth] at h3
      have h4 := ((FMPC.kktOf_prepared (P := fmpcOf (q ref) dt) (x0 := x) (dt := dt) (t0 := t) c.var.us.length w0 e1 0).1 h3).each.1
      apply hne
      funext j
      have := abs_nonpos_iff.1 (h4 j)
      linarith
    · obtain ⟨w2, h3, -⟩ := FMPC.lq_second (L := L) (cfg := cfg) (iter := 2) hU hth.ge hk
      obtain ⟨e2, -, -, ht2, -⟩ := FMPC.procOnce_frame h3
      obtain ⟨r, hr2⟩ : ∃ r, cfg.maxIter.toNat = r + 2 := ⟨cfg.maxIter.toNat - 2, by omega⟩
      unfold FMPC.runSolver at hr
      rw [hr2] at hr
      unfold FMPC.optLoop at hr
      rw [h1] at hr
      simp only [Res.bind_ok, ne_eq, not_true_eq_false, if_false] at hr
      unfold FMPC.optLoop at hr
      rw [h3] at hr
      simp only [Res.bind_ok, ne_eq, reduceCtorEq, not_false_eq_true, if_true, if_false] at hr
      split at hr
      · cases hr
      · cases hr
        rw [ht2, List.length_append, ht1']
        rfl
  | _ => cases h

end Sim

/-- C135 for the problem of C134 with three steps, the first callback of the simulation at the state 1, and any state `x'`. -/
example (o : FMPC.Obj 1 ℝ) (K : Mat 1 1 ℝ) (xp x' : Vec 1 ℝ) (scr : ℕ → FMPC.Scratch 1 (fun _ => 1) (fun _ => 0) ℝ) :
    let cfg : FMPC.Config ℝ := { (FMPC.defaultConfig 3 10 : FMPC.Config ℝ) with
      updateBarrierEps := false, initComplementary := false, kktErrorThre := 0 }
    let P := fmpcOf (scalarEuler 1) 1
    ∃ c', FMPC.timerCallback FMPC.realGain (fun _ => P) 1 cfg scr 0 0 (fun _ => 1) (FMPC.simCtrlInit 1 0 3 K xp o) = .ok c' ∧
      ∃ a e : ℝ, 0 ≤ e ∧ (e = 0 ↔ c'.K *ᵥ (x' - fun _ => 1) = 0) ∧ IsLeast (costsFrom P 0 1 3 x') a ∧
        (∀ v, a ∈ costsWith P 0 1 3 x' v ↔ v = c'.u + c'.K *ᵥ (x' - fun _ => 1)) ∧ IsGLB (costsWith P 0 1 3 x' c'.u) (a + e) ∧
        IsGLB (costsWith P 0 1 3 x' (FMPC.appliedInput c' x')) (a + 4 * e) := by
  intro cfg P
  have hc : FMPC.CtrlOk 1 0 cfg.horizon (FMPC.simCtrlInit 1 0 3 K xp o) :=
    ⟨FMPC.warmOk_reset (n := 1) (m := 1) (p := 0) 3 0 0 0 1 1, FMPC.pos_reset _ _ _ _ one_pos one_pos⟩
  obtain ⟨c', h, -⟩ := FMPC.timerCallback_ok (L := FMPC.realGain) (P := fun _ => P) (dt := 1) (scr := scr) (cfg := cfg)
    (by norm_num [cfg, FMPC.defaultConfig]) (by norm_num [cfg, FMPC.defaultConfig]) ⟨nofun, nofun⟩ 0 0 (fun _ => 1) _ hc
  have ht := trace_two (q := fun _ => scalarEuler 1) (cfg := cfg) FMPC.realGain_exact (fun _ => scalarEuler_convex one_pos) one_pos rfl rfl rfl
    rfl (by norm_num [cfg, FMPC.defaultConfig]) (x := fun _ => 1) (by
      simp [FMPC.simCtrlInit, FMPC.resetVar]
      intro h
      have := congrFun h 0
      simp at this) h
  exact ⟨c', h, (C135_simulation (q := fun _ => scalarEuler 1) (cfg := cfg) FMPC.realGain_exact (fun _ => scalarEuler_convex one_pos)
    one_pos (by norm_num [cfg, FMPC.defaultConfig]) rfl rfl rfl le_rfl h ht x').2⟩

end Nmpc.Agree
