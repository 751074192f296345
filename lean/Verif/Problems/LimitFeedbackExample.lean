import Verif.Problems.LimitFeedbackProps
import Verif.Problems.LimitLoopExample

/-!
# A case of C146 with an active limit
-/

namespace Nmpc.Agree

open Matrix Finset
open DDP (timeAt LQProblem certCfg IsTrajectory)

/-- One step from `a > 3` with input `-1`, the lower limit (the unconstrained optimum is `-a/3`). -/
noncomputable def halfAt (a : ℝ) : DDP.ControlData 1 ℝ := { xs := [![a], ![a / 2 - 1]], us := [⟨1, ![-1]⟩], costs := [(a ^ 2 + 1) / 2, (a / 2 - 1) ^ 2] }

theorem halfAt_trajectory (a : ℝ) : IsTrajectory halfLQ.problem.callbacks 0 1 1 ![a] (halfAt a) where
  lenX := rfl
  lenU := rfl
  lenC := rfl
  start := rfl
  step i hi := by
    obtain rfl : i = 0 := by omega
    refine ⟨![a], ![-1], rfl, rfl, ?_, ?_⟩
    · simp [halfAt, LQProblem.callbacks, ConstLQ.problem, halfLQ]; ring
    · simp [halfAt, LQProblem.callbacks, ConstLQ.problem, halfLQ]; ring
  term := ⟨![a / 2 - 1], rfl, by simp [halfAt, LQProblem.callbacks, ConstLQ.problem, halfLQ]; ring⟩

theorem halfAt_within (a : ℝ) : DDP.WithinLimits (constLim (fun _ : Fin 1 => (-1 : ℝ)) fun _ => 1) 0 1 1 (halfAt a) := by
  intro j hj u hu r
  obtain rfl : j = 0 := by omega
  have h : ![-1] = u := eq_of_heq (Sigma.mk.inj (Option.some.inj hu)).2
  subst h
  have : r = 0 := Subsingleton.elim _ _
  subst this
  norm_num [constLim]

theorem halfAt_kkt {a : ℝ} (ha : 3 < a) : DDP.BoxKkt halfLQ.problem.callbacks (constLim (fun _ : Fin 1 => (-1 : ℝ)) fun _ => 1) 0 1 1 (halfAt a) := by
  refine ⟨fun j => if j = 0 then ![3 * a / 2 - 1] else ![a - 2], fun x hx b => ?_, fun j hj x u hx hu bF bL => ?_⟩
  · simp only [halfAt, List.getElem?_cons_succ, List.getElem?_cons_zero, Option.some.injEq] at hx
    subst hx
    simp [LQProblem.callbacks, ConstLQ.problem, halfLQ]; ring
  · obtain rfl : j = 0 := by omega
    have h : ![-1] = u := eq_of_heq (Sigma.mk.inj (Option.some.inj hu)).2
    simp only [halfAt, List.getElem?_cons_zero, Option.some.injEq] at hx
    subst h hx
    refine ⟨by simp [LQProblem.callbacks, ConstLQ.problem, halfLQ, vecHead, mulVec, dotProduct]; ring, fun r => ?_⟩
    have : r = 0 := Subsingleton.elim _ _
    subst this
    refine ⟨fun _ => rfl, fun h => ?_⟩
    simp [LQProblem.callbacks, ConstLQ.problem, halfLQ] at h
    linarith

theorem halfAt_run {L : LLT ℝ} (hL : L.Exact) (o : DDP.Obj 1 ℝ) (scratch : DDP.Scratch 1 (fun _ => 1) ℝ) {a : ℝ} (ha : 3 < a) :
    ∃ o' e, DDP.solve L halfLQ.problem.callbacks (some (constLim (fun _ => -1) fun _ => 1)) 1 certCfg o 0 scratch ![a] [⟨1, ![-1]⟩] = (o', .ok true) ∧
      o'.control = halfAt a ∧ o'.trace.getLast? = some e ∧ e.alpha = 0 := by
  have hc := halfLQ_strong.convex
  have h' := DDP.C80_fixed (P := halfLQ.problem.callbacks) (lim := constLim (fun _ => -1) fun _ => 1) (o := o) (scratch := scratch)
    (cfg := certCfg) (us := [⟨1, ![-1]⟩]) (dt := 1) (t0 := 0) (x0 := ![a]) hL rfl rfl
    ⟨fun t _ _ _ => hc.stage t, fun t _ _ _ => hc.input t, fun t _ _ => hc.term t⟩
    (by norm_num [certCfg, DDP.defaultConfig]) (by norm_num [certCfg, DDP.defaultConfig]) (by norm_num [certCfg, DDP.defaultConfig])
    (by norm_num [certCfg, DDP.defaultConfig]) (by norm_num [certCfg, DDP.defaultConfig]) rfl (fun i hi => by
      obtain rfl : i = 0 := by simpa using hi
      rfl) (halfAt_trajectory a) rfl (halfAt_within a) (halfAt_kkt ha)
  have hlt : certCfg.initialLambda < certCfg.lambdaThre := by norm_num [certCfg, DDP.defaultConfig]
  obtain ⟨e, he, he0⟩ := (h'.2.2 hlt).2
  refine ⟨_, e, Prod.ext rfl ?_, h'.1, he, he0⟩
  have := h'.2.1
  rwa [decide_eq_true hlt] at this

/-- The quadratic program of a pass at this plan is certified. -/
theorem halfAt_certified {L : LLT ℝ} (hL : L.Exact) {t a : ℝ} (ha : 3 < a) {w : PassData 1 1}
    (h : LastPass L certCfg halfLQ (fun _ => -1) (fun _ => 1) t 1 1 (halfAt a) w) :
    PassCertified L certCfg halfLQ (fun _ => -1) (fun _ => 1) t 1 1 w := by
  obtain ⟨x, u, lambda, V, k, K⟩ := w
  obtain ⟨g1, g2, hl, h⟩ := h
  dsimp only at g1 g2 hl h
  have hx0 : x 0 = ![a] := (Option.some.inj (g1 0 (by omega))).symm
  have hx1 : x 1 = ![a / 2 - 1] := (Option.some.inj (g1 1 le_rfl)).symm
  have hu : u 0 = ![-1] := (eq_of_heq (Sigma.mk.inj (Option.some.inj (g2 0 (by omega)))).2).symm
  intro j hj _
  obtain rfl : j = 0 := by omega
  dsimp only
  have hV : V (0 + 1) = ⟨![a - 2], !![2]⟩ := by
    rw [h.term]
    simp [lqV, LQProblem.callbacks, ConstLQ.problem, halfLQ, hx1]
    ring
  have hF : lqF halfLQ.problem t 1 0 = (⟨!![1 / 2], 1⟩ : DDP.FDeriv 1 1 ℝ) := rfl
  have hLq : lqL halfLQ.problem t 1 x u 0 = (⟨![a], ![-1], 1, 1, 0⟩ : DDP.LDeriv 1 1 ℝ) := by
    simp [lqL, LQProblem.callbacks, ConstLQ.problem, halfLQ, hx0, hu]
  rw [hF, hLq, hV, hu]
  have hpd : (DDP.calcQ certCfg lambda (⟨!![1 / 2], 1⟩ : DDP.FDeriv 1 1 ℝ) ⟨![a], ![-1], 1, 1, 0⟩ ⟨![a - 2], !![2]⟩).QuuF.PosDef :=
    DDP.calcQ_posDef hl two_psd PosDef.one
  have hQu : (DDP.calcQ certCfg lambda (⟨!![1 / 2], 1⟩ : DDP.FDeriv 1 1 ℝ) ⟨![a], ![-1], 1, 1, 0⟩ ⟨![a - 2], !![2]⟩).Qu = ![a - 3] := by
    simp only [DDP.calcQ, mulVec_real]; ext i; fin_cases i; simp; ring
  have hin : DDP.initialK (m := fun _ => 1) 1 ⟨k, K⟩ 0 = (0 : Vec 1 ℝ) := rfl
  rw [hQu, hin]
  obtain ⟨r, r1, _, r3, _⟩ := BoxQP.solve_at_kkt (L := L) (c := BoxQP.Config.default) (o := DDP.freshQP 1)
    (a := { H := (DDP.calcQ certCfg lambda (⟨!![1 / 2], 1⟩ : DDP.FDeriv 1 1 ℝ) ⟨![a], ![-1], 1, 1, 0⟩ ⟨![a - 2], !![2]⟩).QuuF, g := ![a - 3],
            lower := (fun _ => -1) - ![-1], upper := (fun _ => 1) - ![-1], init := 0 }) hL hpd
    (fun i => by fin_cases i; norm_num) (by norm_num [BoxQP.Config.default]) (fun i hi => by
      exfalso
      rw [BoxQP.gradient_real] at hi
      fin_cases i
      norm_num [BoxQP.clampedFlags] at hi
      linarith)
  exact ⟨r, r1, r3⟩

/-- All hypotheses of `C146_ddp` are met by two calls from different states with the input at its lower limit. -/
example {L : LLT ℝ} (hL : L.Exact) (o : DDP.Obj 1 ℝ) (sc : DDP.Scratch 1 (fun _ => 1) ℝ) {a b : ℝ} (ha : 3 < a) (hb : 3 < b) (ha' : a ≤ 9) (hb' : b ≤ 9) :
    ∃ C, 1 ≤ C ∧ ∃ (o1 o2 : DDP.Obj 1 ℝ) (w w' : PassData 1 1),
      LastPass L certCfg halfLQ (fun _ => -1) (fun _ => 1) 0 1 1 o1.control w ∧
      LastPass L certCfg halfLQ (fun _ => -1) (fun _ => 1) 0 1 1 o2.control w' ∧ w.x 0 = ![a] ∧ w'.x 0 = ![b] ∧
      ‖w'.u 0 - w.u 0‖ ≤ C * (‖(![b] : Vec 1 ℝ) - ![a]‖ + Real.sqrt (1 / 10 ^ 4 + 1 / 10 ^ 4 + 2 / 10 ^ 8)) := by
  obtain ⟨C, hC, h⟩ := C146_ddp (lamT := 1 / 10 ^ 5) (dt := 1) halfLQ_regulator one_pos (by norm_num) 1 (r := 9) (by norm_num)
  obtain ⟨o1, e1, s1, c1, l1, z1⟩ := halfAt_run hL o sc ha
  obtain ⟨o2, e2, s2, c2, l2, z2⟩ := halfAt_run hL o sc hb
  have hd : DDP.DimsOk (fun _ => 1) 0 1 [⟨1, (![-1] : Vec 1 ℝ)⟩] := fun i hi => by
    obtain rfl : i = 0 := by simpa using hi
    rfl
  obtain ⟨w, w', p1, p2, g⟩ := h L L certCfg certCfg o o1 o o2 0 0 sc sc ![a] ![b] [⟨1, ![-1]⟩] [⟨1, ![-1]⟩] e1 e2 hL hL certCfg_settings
    certCfg_settings rfl rfl rfl rfl hd hd s1 s2 l1 z1 l2 z2
  have hn : ∀ {a : ℝ}, 3 < a → a ≤ 9 → ‖(![a] : Vec 1 ℝ)‖ ≤ 9 := fun h1 h2 => by
    rw [pi_norm_le_iff_of_nonneg (by norm_num)]
    intro i
    fin_cases i
    exact abs_le.2 ⟨by norm_num; linarith, by norm_num; linarith⟩
  have q1 := p1
  have q2 := p2
  rw [c1] at q1
  rw [c2] at q2
  refine ⟨C, hC, o1, o2, w, w', p1, p2, ?_, ?_, ?_⟩
  · exact (Option.some.inj (q1.xs 0 (by omega))).symm
  · exact (Option.some.inj (q2.xs 0 (by omega))).symm
  · have hk : certCfg.kRelNormThre = 1 / 10 ^ 4 := by norm_num [certCfg, DDP.defaultConfig]
    rw [hk] at g
    exact g (hn ha ha') (hn hb hb') (halfAt_certified hL ha q1) (halfAt_certified hL hb q2) 0 one_pos

end Nmpc.Agree
