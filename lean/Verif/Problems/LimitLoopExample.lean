import Verif.Problems.LimitLoopProps
import Verif.Problems.LimitAgreeExample

/-!
# A case of C143 with an active limit
-/

namespace Nmpc.Agree

open Matrix Finset
open DDP (timeAt LQProblem certCfg IsTrajectory)

/-- `x' = x/2 + u`, running cost `(x² + u²)/2`, terminal cost `x²`. -/
noncomputable def halfLQ : ConstLQ 1 1 where
  A := !![1 / 2]
  B := 1
  c := 0
  Q := 1
  M := 0
  R := 1
  q := 0
  r := 0
  e := 0
  Qf := !![2]
  qf := 0
  ef := 0
  symmQ := isSymm_one
  symmR := isSymm_one
  symmQf := by ext i j; fin_cases i; fin_cases j; rfl

theorem two_psd : (!![2] : Mat 1 1 ℝ).PosSemidef := by
  have : (!![2] : Mat 1 1 ℝ) = (2 : ℝ) • 1 := by ext i j; fin_cases i; fin_cases j; simp
  rw [this]
  exact PosSemidef.one.smul (by norm_num)

theorem halfLQ_next (x u : Vec 1 ℝ) : halfLQ.next x u 0 = x 0 / 2 + u 0 := by
  simp [ConstLQ.next, halfLQ, vecHead]; ring

theorem halfLQ_run (x u : Vec 1 ℝ) : halfLQ.run x u = (x 0 ^ 2 + u 0 ^ 2) / 2 := by
  simp [ConstLQ.run, halfLQ, dotProduct]; ring

theorem halfLQ_term (x : Vec 1 ℝ) : halfLQ.term x = x 0 ^ 2 := by
  simp [ConstLQ.term, halfLQ, mulVec, dotProduct]; ring

theorem halfLQ_strong : halfLQ.problem.StronglyConvex 1 where
  pos := one_pos
  stage t x u := by
    simp only [ConstLQ.problem, halfLQ, one_mulVec, zero_mulVec, dotProduct_zero, mul_zero, add_zero, one_mul]
    exact le_add_of_nonneg_left (dot_self_nonneg x)
  term _ := two_psd

theorem halfLQ_regulator : LimitRegulator halfLQ (fun _ => -1) (fun _ => 1) 1 where
  strong := halfLQ_strong
  room := ⟨1, one_pos, fun _ => by norm_num⟩
  run_nonneg x u := by rw [halfLQ_run]; positivity
  term_nonneg x := by rw [halfLQ_term]; positivity
  terminal x := by
    refine ⟨0, fun _ => by norm_num, ?_⟩
    rw [halfLQ_term, halfLQ_term, halfLQ_run, halfLQ_next]
    simp only [Pi.zero_apply]
    nlinarith [sq_nonneg (x 0)]

/-- One step from `4` with input `-1`, the lower limit (the unconstrained optimum is `-4/3`). -/
noncomputable def halfData : DDP.ControlData 1 ℝ := { xs := [![4], ![1]], us := [⟨1, ![-1]⟩], costs := [17 / 2, 1] }

theorem half_trajectory : IsTrajectory halfLQ.problem.callbacks 0 1 1 ![4] halfData where
  lenX := rfl
  lenU := rfl
  lenC := rfl
  start := rfl
  step i hi := by
    obtain rfl : i = 0 := by omega
    refine ⟨![4], ![-1], rfl, rfl, ?_, ?_⟩
    · simp [halfData, LQProblem.callbacks, ConstLQ.problem, halfLQ]; norm_num
    · simp [halfData, LQProblem.callbacks, ConstLQ.problem, halfLQ]; norm_num
  term := ⟨![1], rfl, by simp [halfData, LQProblem.callbacks, ConstLQ.problem, halfLQ]⟩

theorem half_within : DDP.WithinLimits (constLim (fun _ : Fin 1 => (-1 : ℝ)) fun _ => 1) 0 1 1 halfData := by
  intro j hj u hu r
  obtain rfl : j = 0 := by omega
  have h : ![-1] = u := eq_of_heq (Sigma.mk.inj (Option.some.inj hu)).2
  subst h
  have : r = 0 := Subsingleton.elim _ _
  subst this
  norm_num [constLim]

theorem half_kkt : DDP.BoxKkt halfLQ.problem.callbacks (constLim (fun _ : Fin 1 => (-1 : ℝ)) fun _ => 1) 0 1 1 halfData := by
  refine ⟨fun j => if j = 0 then ![5] else ![2], fun x hx b => ?_, fun j hj x u hx hu bF bL => ?_⟩
  · simp only [halfData, List.getElem?_cons_succ, List.getElem?_cons_zero, Option.some.injEq] at hx
    subst hx
    simp [LQProblem.callbacks, ConstLQ.problem, halfLQ]
  · obtain rfl : j = 0 := by omega
    have h : ![-1] = u := eq_of_heq (Sigma.mk.inj (Option.some.inj hu)).2
    simp only [halfData, List.getElem?_cons_zero, Option.some.injEq] at hx
    subst h hx
    refine ⟨by simp [LQProblem.callbacks, ConstLQ.problem, halfLQ, vecHead, mulVec, dotProduct]; norm_num, fun r => ?_⟩
    have : r = 0 := Subsingleton.elim _ _
    subst this
    refine ⟨fun _ => rfl, fun h => ?_⟩
    simp [LQProblem.callbacks, ConstLQ.problem, halfLQ] at h

theorem half_run {L : LLT ℝ} (hL : L.Exact) (o : DDP.Obj 1 ℝ) (scratch : DDP.Scratch 1 (fun _ => 1) ℝ) {o' : DDP.Obj 1 ℝ} {b : Bool}
    (h : DDP.solve L halfLQ.problem.callbacks (some (constLim (fun _ => -1) fun _ => 1)) 1 certCfg o 0 scratch ![4] [⟨1, ![-1]⟩] = (o', .ok b)) :
    o'.control = halfData ∧ b = true ∧ ∃ e, o'.trace.getLast? = some e ∧ e.alpha = 0 := by
  have hc := halfLQ_strong.convex
  have h' := DDP.C80_fixed (P := halfLQ.problem.callbacks) (lim := constLim (fun _ => -1) fun _ => 1) (o := o) (scratch := scratch)
    (cfg := certCfg) (us := [⟨1, ![-1]⟩]) (dt := 1) (t0 := 0) (x0 := ![4]) hL rfl rfl
    ⟨fun t _ _ _ => hc.stage t, fun t _ _ _ => hc.input t, fun t _ _ => hc.term t⟩
    (by norm_num [certCfg, DDP.defaultConfig]) (by norm_num [certCfg, DDP.defaultConfig]) (by norm_num [certCfg, DDP.defaultConfig])
    (by norm_num [certCfg, DDP.defaultConfig]) (by norm_num [certCfg, DDP.defaultConfig]) rfl (fun i hi => by
      obtain rfl : i = 0 := by simpa using hi
      rfl) half_trajectory rfl half_within half_kkt
  have hlt : certCfg.initialLambda < certCfg.lambdaThre := by norm_num [certCfg, DDP.defaultConfig]
  rw [h] at h'
  refine ⟨h'.1, ?_, (h'.2.2 hlt).2⟩
  have := h'.2.1
  rw [decide_eq_true hlt] at this
  exact Res.ok.inj this

/-- The quadratic program of a pass at `x = (4, 1)`, `u = -1` is certified. -/
theorem half_certified {L : LLT ℝ} (hL : L.Exact) {t : ℝ} {w : PassData 1 1}
    (h : LastPass L certCfg halfLQ (fun _ => -1) (fun _ => 1) t 1 1 halfData w) :
    PassCertified L certCfg halfLQ (fun _ => -1) (fun _ => 1) t 1 1 w := by
  obtain ⟨x, u, lambda, V, k, K⟩ := w
  obtain ⟨g1, g2, hl, h⟩ := h
  dsimp only at g1 g2 hl h
  have hx0 : x 0 = ![4] := (Option.some.inj (g1 0 (by omega))).symm
  have hx1 : x 1 = ![1] := (Option.some.inj (g1 1 le_rfl)).symm
  have hu : u 0 = ![-1] := (eq_of_heq (Sigma.mk.inj (Option.some.inj (g2 0 (by omega)))).2).symm
  intro j hj _
  obtain rfl : j = 0 := by omega
  dsimp only
  have hV : V (0 + 1) = ⟨![2], !![2]⟩ := by
    rw [h.term]
    simp [lqV, LQProblem.callbacks, ConstLQ.problem, halfLQ, hx1]
  have hF : lqF halfLQ.problem t 1 0 = (⟨!![1 / 2], 1⟩ : DDP.FDeriv 1 1 ℝ) := rfl
  have hLq : lqL halfLQ.problem t 1 x u 0 = (⟨![4], ![-1], 1, 1, 0⟩ : DDP.LDeriv 1 1 ℝ) := by
    simp [lqL, LQProblem.callbacks, ConstLQ.problem, halfLQ, hx0, hu]
  rw [hF, hLq, hV, hu]
  have hpd : (DDP.calcQ certCfg lambda (⟨!![1 / 2], 1⟩ : DDP.FDeriv 1 1 ℝ) ⟨![4], ![-1], 1, 1, 0⟩ ⟨![2], !![2]⟩).QuuF.PosDef :=
    DDP.calcQ_posDef hl two_psd PosDef.one
  have hQu : (DDP.calcQ certCfg lambda (⟨!![1 / 2], 1⟩ : DDP.FDeriv 1 1 ℝ) ⟨![4], ![-1], 1, 1, 0⟩ ⟨![2], !![2]⟩).Qu = ![1] := by
    simp only [DDP.calcQ, mulVec_real]; ext i; fin_cases i; norm_num
  have hin : DDP.initialK (m := fun _ => 1) 1 ⟨k, K⟩ 0 = (0 : Vec 1 ℝ) := rfl
  rw [hQu, hin]
  obtain ⟨r, r1, _, r3, _⟩ := BoxQP.solve_at_kkt (L := L) (c := BoxQP.Config.default) (o := DDP.freshQP 1)
    (a := { H := (DDP.calcQ certCfg lambda (⟨!![1 / 2], 1⟩ : DDP.FDeriv 1 1 ℝ) ⟨![4], ![-1], 1, 1, 0⟩ ⟨![2], !![2]⟩).QuuF, g := ![1],
            lower := (fun _ => -1) - ![-1], upper := (fun _ => 1) - ![-1], init := 0 }) hL hpd
    (fun i => by fin_cases i; norm_num) (by norm_num [BoxQP.Config.default]) (fun i hi => by
      exfalso
      rw [BoxQP.gradient_real] at hi
      fin_cases i
      norm_num [BoxQP.clampedFlags] at hi)
  exact ⟨r, r1, r3⟩

/-- All hypotheses of `C143_loop` are met by a loop of one round with the input at its lower limit: horizon 1, `x' = x/2 + u`, `x0 = 4`,
`-1 ≤ u ≤ 1`. -/
example {L : LLT ℝ} (hL : L.Exact) (o : DDP.Obj 1 ℝ) (scr : ℕ → (t : ℝ) → DDP.Scratch 1 (fun _ => 1) ℝ) : ∃ C, 1 ≤ C ∧ ∃ s : DDP.Mpc 1 ℝ,
    DDP.mpcLoop L halfLQ.problem.callbacks (some (constLim (fun _ => -1) fun _ => 1)) 1 (fun _ => certCfg) scr (fun _ us => .ok us) 1 o 0 ![4]
      [⟨1, ![-1]⟩] = .ok s ∧ s.k = 1 ∧ s.x = ![1] ∧
    1 / 2 * (s.x 0) ^ 2 ≤ 1 / 2 * 4 ^ 2 + 2 * (C * (1 / 10 ^ 4 + 1 / 10 ^ 8)) := by
  obtain ⟨C, hC, h⟩ := C143_loop (lamT := 1 / 10 ^ 5) (dt := 1) (N := 1) (S := fun x => x 0 ^ 2) (a := 1 / 2) (b := 1) (r := 4) halfLQ_regulator one_pos
    (by norm_num) le_rfl (by norm_num) (by norm_num) (by norm_num) (fun x u => by rw [halfLQ_run]; nlinarith [sq_nonneg (u 0)])
    (fun x => by rw [halfLQ_term, one_mul])
  obtain ⟨s, O, X, W, U, g1, g2, g3, g4, g5⟩ := h L (fun _ => certCfg) scr (fun _ us => .ok us) 1 0 o ![4] [⟨1, ![-1]⟩] (1 / 10 ^ 4) hL
    (fun _ => ⟨certCfg_settings, rfl, by norm_num [certCfg, DDP.defaultConfig]⟩)
    (fun t us hl hd => ⟨us, rfl, hl, hd, fun i hi => by omega⟩) rfl (fun i hi => by
      obtain rfl : i = 0 := by simpa using hi
      rfl)
  have hk : s.k = 1 := by rw [g2]; norm_num
  obtain ⟨⟨b, hb⟩, hx, -, -⟩ := g3.round 0 (by omega)
  rw [g3.obj0, g3.state0, g3.warm0, solve_const] at hb
  obtain ⟨f1, rfl, f3⟩ := half_run hL _ _ hb
  have hex : SmallExits L halfLQ (fun _ => -1) (fun _ => 1) 1 (fun _ => certCfg) scr 0 s.k O X W := by
    intro k hk'
    obtain rfl : k = 0 := by omega
    refine ⟨?_, f3⟩
    rw [g3.obj0, g3.state0, g3.warm0, solve_const]
    exact hb
  obtain ⟨-, w, w1, w2⟩ := g5 hex
  have hcert := (w2 fun k hk' => by
    obtain rfl : k = 0 := by omega
    have := w1 0 hk'
    rw [f1] at this
    exact half_certified hL this).1 fun k hk' => by
      obtain rfl : k = 0 := by omega
      rw [g3.state0, pi_norm_le_iff_of_nonneg (by norm_num)]
      intro i
      fin_cases i
      norm_num
  have hs : s.x = ![1] := by
    rw [← g3.state, hk]
    rw [f1] at hx
    exact (Option.some.inj hx).symm
  refine ⟨C, hC, s, g1, hk, hs, ?_⟩
  have := hcert.decay 1 (by omega)
  have h1 : X 1 = s.x := by rw [← g3.state, hk]
  rw [h1] at this
  simp only [pow_one, one_mul, div_one, one_div, inv_inv] at this ⊢
  norm_num at this ⊢
  linarith

end Nmpc.Agree
