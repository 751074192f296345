import Verif.Problems.LimitAgreeProps
import Verif.DDP.LimitCertExample

/-!
# A case of C141 with an active limit
-/

namespace Nmpc.Agree

open Matrix Finset
open DDP (timeAt LQProblem scalarInt certCfg)

/-- Limits `-1 ≤ u ≤ 1`. -/
noncomputable def unitLim : (t : ℝ) → Vec ((fun _ : ℝ => 1) t) ℝ × Vec ((fun _ : ℝ => 1) t) ℝ := fun _ => (fun _ => -1, fun _ => 1)

theorem scalarInt_strong : scalarInt.StronglyConvex 1 where
  pos := one_pos
  stage t x u := by
    simp only [scalarInt, one_mulVec, zero_mulVec, dotProduct_zero, mul_zero, add_zero, one_mul]
    exact le_add_of_nonneg_left (dot_self_nonneg x)
  term := DDP.scalarInt_convex.term

theorem certCfg_settings : LimitSettings certCfg (1 / 10 ^ 5) := by
  constructor <;> norm_num [certCfg, DDP.defaultConfig]

/-- A start close to the optimum `u = -1` of the horizon `x0 = 4`, `N = 1`. -/
noncomputable def nearInit (ε : ℝ) : FMPC.VarL 1 ℝ where
  xs := [![4], ![3]]
  us := [⟨1, ![-1]⟩]
  lams := [![7], ![3]]
  ss := [⟨2, ![2, ε]⟩]
  nus := [⟨2, ![ε, 2 + ε]⟩]

theorem near_success (LF : FMPC.GainSolver ℝ) (o : FMPC.Obj 1 ℝ)
    (sc : FMPC.Scratch 1 (fun i => (fun _ : ℝ => 1) (timeAt 0 1 i)) (fun i => (fun _ : ℝ => 1) (timeAt 0 1 i) + (fun _ : ℝ => 1) (timeAt 0 1 i)) ℝ)
    {ε : ℝ} (h0 : 0 < ε) (h1 : ε ≤ 1) : (nearInit ε).Pos ∧ ∃ o',
      FMPC.solve LF (fmpcBox scalarInt unitLim 1) 1
        { (FMPC.defaultConfig 1 10 : FMPC.Config ℝ) with updateBarrierEps := false, kktErrorThre := 10 * ε } o 0 sc ![4] (nearInit ε) =
        (o', .ok .succeeded) := by
  have hpos : (nearInit ε).Pos := by
    constructor <;>
    · intro e he j
      simp only [nearInit, List.mem_cons, List.not_mem_nil, or_false] at he
      subst he
      show (0 : ℝ) < (_ : Vec 2 ℝ) j
      revert j
      refine Fin.forall_fin_two.2 ⟨?_, ?_⟩ <;> simp <;> linarith
  refine ⟨hpos, ?_⟩
  set cfg : FMPC.Config ℝ := { (FMPC.defaultConfig 1 10 : FMPC.Config ℝ) with updateBarrierEps := false, kktErrorThre := 10 * ε } with hcfg
  have hl : FMPC.LengthsOk cfg.horizon (nearInit ε) := by simp [FMPC.LengthsOk, nearInit, hcfg, FMPC.defaultConfig]
  have hd : FMPC.DimsOk (fun _ : ℝ => 1) (fun t => (fun _ : ℝ => 1) t + (fun _ : ℝ => 1) t) 0 1 (nearInit ε) := by
    refine ⟨?_, ?_, ?_⟩ <;>
    · intro i hi
      simp only [nearInit, List.length_cons, List.length_nil] at hi
      match i, hi with
      | 0, _ => rfl
  have hn : FMPC.NonNeg (nearInit ε) :=
    ⟨fun e he j => by simpa using (hpos.1 e he j).le, fun e he j => by simpa using (hpos.2 e he j).le⟩
  have hc : FMPC.checkVariable (fun _ : ℝ => 1) (fun t => (fun _ : ℝ => 1) t + (fun _ : ℝ => 1) t) 0 1 cfg.horizon (nearInit ε) = .ok () :=
    (FMPC.checkVariable_iff (nearInit ε)).2.2.2 ⟨hl, hd, hn⟩
  set w0 := FMPC.initSolver (m := fun i => (fun _ : ℝ => 1) (timeAt 0 1 i))
    (p := fun i => (fun t => (fun _ : ℝ => 1) t + (fun _ : ℝ => 1) t) (timeAt 0 1 i)) (nearInit ε) o.eps sc with hw0
  have hx : w0.var.x 0 = ![4] := rfl
  have hx1 : w0.var.x 1 = ![3] := rfl
  have hu : w0.var.u 0 = ![-1] := rfl
  have hl0 : w0.var.lam 0 = ![7] := rfl
  have hl1 : w0.var.lam 1 = ![3] := rfl
  have hs0 : w0.var.s 0 = ![2, ε] := rfl
  have hn0 : w0.var.nu 0 = ![ε, 2 + ε] := rfl
  have hk : ∀ e, leb (FMPC.kktOf 1 ![4] (FMPC.prepared 1 (FMPC.stagesOf (fmpcBox scalarInt unitLim 1) 0 1 1) w0 e)) cfg.kktErrorThre = true := by
    intro e
    rw [leb_real]
    refine (FMPC.kktOf_prepared (P := fmpcBox scalarInt unitLim 1) (x0 := ![4]) (dt := 1) (t0 := 0) 1 w0 e _).2 ?_
    unfold FMPC.KktWithin FMPC.stageResidual
    simp only [sum_range_one, hx, hx1, hu, hl0, hl1, hs0, hn0, zero_add]
    simp [FMPC.prepared, FMPC.calcCoeff, FMPC.calcTerm, FMPC.stagesOf, fmpcBox, scalarInt]
    rw [congrFun hx 0, congrFun hu 0, congrFun hx1 0]
    have a0 : ∀ a b : Vec 1 ℝ, (Fin.append a b : Vec 2 ℝ) 0 = a 0 := fun a b => Fin.append_left a b 0
    have a1 : ∀ a b : Vec 1 ℝ, (Fin.append a b : Vec 2 ℝ) 1 = b 0 := fun a b => Fin.append_right a b 0
    erw [a0, a1, a0, a1]
    simp [unitLim, vecHead]
    rw [max_eq_left (by positivity), max_eq_left (by positivity)]
    show _ ≤ 10 * ε
    rw [Real.sqrt_le_left (by positivity)]
    have b1 : ε * (2 + ε) ≤ 3 * ε := by nlinarith
    have b2 : (ε * (2 + ε)) ^ 2 ≤ (3 * ε) ^ 2 := pow_le_pow_left₀ (by positivity) b1 2
    nlinarith [sq_nonneg ε]
  obtain ⟨o', h, _⟩ := FMPC.start_accepted (L := LF) (P := fmpcBox scalarInt unitLim 1) (cfg := cfg) (o := o) (sc := sc) (init := nearInit ε)
    (t0 := 0) (dt := 1) (x0 := ![4]) rfl rfl (by show (1 : ℤ) ≤ 10; norm_num) hc hk
  exact ⟨o', h⟩

/-- The quadratic program of a pass at `x = (4, 3)`, `u = -1` is certified. -/
theorem scalar_certified {L : LLT ℝ} (hL : L.Exact) {x : ℕ → Vec 1 ℝ} {u : (j : ℕ) → Vec ((fun _ : ℝ => 1) (timeAt 0 1 j)) ℝ} {lambda : ℝ}
    {V : ℕ → DDP.VDeriv 1 ℝ} {k : (j : ℕ) → Vec ((fun _ : ℝ => 1) (timeAt 0 1 j)) ℝ}
    {K : (j : ℕ) → Mat ((fun _ : ℝ => 1) (timeAt 0 1 j)) 1 ℝ} (hx0 : x 0 = ![4]) (hx1 : x 1 = ![3]) (hu : u 0 = ![-1]) (hl : 0 ≤ lambda)
    (h : PassAt L certCfg scalarInt unitLim 0 1 1 x u lambda V k K) : CertifiedAt L certCfg scalarInt unitLim 0 1 1 x u lambda V k K := by
  intro j hj _
  obtain rfl : j = 0 := by omega
  have hV : V (0 + 1) = ⟨![3], 1⟩ := by
    rw [h.term]
    simp [lqV, LQProblem.callbacks, scalarInt, hx1]
  have hF : lqF scalarInt 0 1 0 = (⟨1, 1⟩ : DDP.FDeriv 1 1 ℝ) := rfl
  have hLq : lqL scalarInt 0 1 x u 0 = (⟨![4], ![-1], 1, 1, 0⟩ : DDP.LDeriv 1 1 ℝ) := by
    simp [lqL, LQProblem.callbacks, scalarInt, hx0, hu]
  rw [hF, hLq, hV, hu]
  have hpd : (DDP.calcQ certCfg lambda (⟨1, 1⟩ : DDP.FDeriv 1 1 ℝ) ⟨![4], ![-1], 1, 1, 0⟩ ⟨![3], 1⟩).QuuF.PosDef :=
    DDP.calcQ_posDef hl PosSemidef.one PosDef.one
  have hQu : (DDP.calcQ certCfg lambda (⟨1, 1⟩ : DDP.FDeriv 1 1 ℝ) ⟨![4], ![-1], 1, 1, 0⟩ ⟨![3], 1⟩).Qu = ![2] := by
    simp only [DDP.calcQ, mulVec_real]; ext i; fin_cases i; norm_num
  have hin : DDP.initialK (m := fun _ => 1) 1 ⟨k, K⟩ 0 = (0 : Vec 1 ℝ) := rfl
  rw [hQu, hin]
  obtain ⟨r, r1, _, r3, _⟩ := BoxQP.solve_at_kkt (L := L) (c := BoxQP.Config.default) (o := DDP.freshQP 1)
    (a := { H := (DDP.calcQ certCfg lambda (⟨1, 1⟩ : DDP.FDeriv 1 1 ℝ) ⟨![4], ![-1], 1, 1, 0⟩ ⟨![3], 1⟩).QuuF, g := ![2],
            lower := (fun _ => -1) - ![-1], upper := (fun _ => 1) - ![-1], init := 0 }) hL hpd
    (fun i => by fin_cases i; norm_num) (by norm_num [BoxQP.Config.default]) (fun i hi => by
      exfalso
      rw [BoxQP.gradient_real] at hi
      fin_cases i
      norm_num [BoxQP.clampedFlags] at hi)
  exact ⟨r, r1, r3⟩

/-- All hypotheses of `C141_agree` are met by runs of both solvers with the input at its lower limit: horizon 1, `x' = x + u`, `x0 = 4`,
`-1 ≤ u ≤ 1`. -/
example {L : LLT ℝ} (hL : L.Exact) (o : DDP.Obj 1 ℝ) (scratch : DDP.Scratch 1 (fun i => (fun _ : ℝ => 1) (timeAt 0 1 i)) ℝ)
    (LF : FMPC.GainSolver ℝ) (oF : FMPC.Obj 1 ℝ)
    (sc : FMPC.Scratch 1 (fun i => (fun _ : ℝ => 1) (timeAt 0 1 i)) (fun i => (fun _ : ℝ => 1) (timeAt 0 1 i) + (fun _ : ℝ => 1) (timeAt 0 1 i)) ℝ) :
    ∃ C, 1 ≤ C ∧ ∀ ε, 0 < ε → C * (10 * ε) ≤ 1 → ∃ (oF' : FMPC.Obj 1 ℝ)
      (v : FMPC.Var 1 (fun i => (fun _ : ℝ => 1) (timeAt 0 1 i)) (fun i => (fun _ : ℝ => 1) (timeAt 0 1 i) + (fun _ : ℝ => 1) (timeAt 0 1 i)) ℝ),
      FMPC.solve LF (fmpcBox scalarInt unitLim 1) 1
        { (FMPC.defaultConfig 1 10 : FMPC.Config ℝ) with updateBarrierEps := false, kktErrorThre := 10 * ε } oF 0 sc ![4] (nearInit ε) =
        (oF', .ok .succeeded) ∧ oF'.var = v.out 1 ∧
      (![-1] - v.u 0) ⬝ᵥ (![-1] - v.u 0) ≤ C * (1 / 10 ^ 4 + 1 / 10 ^ 8 + 10 * ε) := by
  obtain ⟨C, hC, h⟩ := C141_agree (lim := unitLim) scalarInt_strong one_pos (lamT := 1 / 10 ^ 5) (σ := 1) (by norm_num) one_pos
    (fun _ _ => by norm_num [unitLim]) 0 ![4] 1
  refine ⟨C, hC, fun ε h0 h1 => ?_⟩
  have hε : ε ≤ 1 := by nlinarith
  obtain ⟨hpos, oF', hF⟩ := near_success LF oF sc h0 hε
  obtain ⟨c1, c2, e, c3, c4⟩ := DDP.scalarRun_facts hL o scratch
  obtain ⟨x, u, la, V, k, K, v, g1, g2, g3, g4, g5, g6⟩ := h L certCfg o scratch [⟨1, ![-1]⟩] e LF _ oF oF' sc (nearInit ε) hL certCfg_settings rfl rfl
    (fun i hi => by
      obtain rfl : i = 0 := by simpa using hi
      rfl) c2 c3 c4 rfl (.inr hpos) h1 hF
  refine ⟨oF', v, hF, g5, ?_⟩
  have e1 : (DDP.solve L scalarInt.callbacks (some unitLim) 1 certCfg o 0 scratch ![4] [⟨1, ![-1]⟩]).1.control = DDP.scalarData := c1
  rw [e1] at g1 g2
  have hx0 : x 0 = ![4] := (Option.some.inj (g1 0 (by omega))).symm
  have hx1 : x 1 = ![3] := (Option.some.inj (g1 1 le_rfl)).symm
  have hu : u 0 = ![-1] := by
    have := Option.some.inj (g2 0 (by omega))
    exact (eq_of_heq (Sigma.mk.inj this).2).symm
  have := g6 (scalar_certified hL hx0 hx1 hu g3 g4)
  rw [sum_range_one, hu] at this
  have hk : certCfg.kRelNormThre = 1 / 10 ^ 4 := by norm_num [certCfg, DDP.defaultConfig]
  rw [hk] at this
  exact this

end Nmpc.Agree
