import Verif.DDP.LimitCertProps
import Verif.DDP.BoxKktExample

/-!
# A case of C132 with an active limit
-/

namespace Nmpc.DDP

open Matrix Finset

/-- Default configuration with limits and without initial regularisation. -/
noncomputable def certCfg : Config ℝ := { defaultConfig [1] 500 1 with withConstraint := true, initialLambda := 0 }

/-- The trajectory of `BoxKktExample.lean` as initial inputs. -/
noncomputable abbrev scalarRun (L : LLT ℝ) (o : Obj 1 ℝ) (scratch : Scratch 1 (fun i => (fun _ : ℝ => 1) (timeAt 0 1 i)) ℝ) :
    Obj 1 ℝ × Res Bool :=
  solve L scalarInt.callbacks (some fun _ => (fun _ => -1, fun _ => 1)) 1
    certCfg o 0 scratch ![4] [⟨1, ![-1]⟩]

theorem scalarRun_facts {L : LLT ℝ} (hL : L.Exact) (o : Obj 1 ℝ) (scratch : Scratch 1 (fun i => (fun _ : ℝ => 1) (timeAt 0 1 i)) ℝ) :
    (scalarRun L o scratch).1.control = scalarData ∧ (scalarRun L o scratch).2 = .ok true ∧
      ∃ e, (scalarRun L o scratch).1.trace.getLast? = some e ∧ e.alpha = 0 := by
  have h := C80_fixed (P := scalarInt.callbacks) (lim := fun _ => (fun _ => -1, fun _ => 1)) (o := o) (scratch := scratch)
    (cfg := certCfg) (us := [⟨1, ![-1]⟩]) hL rfl rfl
    ⟨fun t _ _ _ => scalarInt_convex.stage t, fun t _ _ _ => scalarInt_convex.input t, fun t _ _ => scalarInt_convex.term t⟩
    (by norm_num [certCfg, defaultConfig]) (by norm_num [certCfg, defaultConfig]) (by norm_num [certCfg, defaultConfig]) (by norm_num [certCfg, defaultConfig])
    (by norm_num [certCfg, defaultConfig]) rfl (fun i hi => by
      obtain rfl : i = 0 := by simpa using hi
      rfl) scalar_trajectory rfl scalar_within
    scalar_kkt
  have hlt : certCfg.initialLambda <
      certCfg.lambdaThre := by norm_num [certCfg, defaultConfig]
  exact ⟨h.1, by rw [show (scalarRun L o scratch).2 = _ from h.2.1, decide_eq_true hlt], (h.2.2 hlt).2⟩

theorem stretch_one {n : ℕ} : Stretch (1 : Mat n n ℝ) 1 := fun v => by rw [one_mulVec, one_mul]

/-- All hypotheses of `C132_gap` are met, the quadratic program is certified, and the input is at its lower limit. -/
example {L : LLT ℝ} (hL : L.Exact) (o : Obj 1 ℝ) (scratch : Scratch 1 (fun i => (fun _ : ℝ => 1) (timeAt 0 1 i)) ℝ) :
    ∃ k : Vec 1 ℝ, Real.sqrt (k ⬝ᵥ k) ≤ 1 / 10 ^ 4 * 2 ∧
      ∀ (D : ControlData 1 ℝ) (w : Vec 1 ℝ), IsTrajectory scalarInt.callbacks 0 1 1 ![4] D → D.us[0]? = some ⟨1, w⟩ →
        -1 ≤ w 0 → w 0 ≤ 1 →
        13 ≤ D.costs.sum + ((3 + 2 / 10 ^ 5) * (1 / 10 ^ 4 * 2 + 1 / 10 ^ 8) * Real.sqrt ((w - (![-1] + k)) ⬝ᵥ (w - (![-1] + k))) +
          1 / 10 ^ 4 * 2 * 2) := by
  obtain ⟨h1, h2, e, h3, h4⟩ := scalarRun_facts hL o scratch
  have hs1 : Real.sqrt ((![-1] : Vec 1 ℝ) ⬝ᵥ ![-1]) = 1 := by
    rw [show (![-1] : Vec 1 ℝ) ⬝ᵥ ![-1] = 1 by simp [dotProduct]]; exact Real.sqrt_one
  obtain ⟨lambda, V, k, K, g1, g2, g3, g4, g5⟩ := C132_gap (p := scalarInt) (L := L) (lim := fun _ => (fun _ => -1, fun _ => 1)) (dt := 1)
    (t0 := 0) (o := o) (scratch := scratch) (x0 := ![4]) (us := [⟨1, ![-1]⟩])
    (cfg := certCfg) hL rfl rfl scalarInt_convex
    (by norm_num [certCfg, defaultConfig]) (by norm_num [certCfg, defaultConfig]) (by norm_num [certCfg, defaultConfig]) (by norm_num [certCfg, defaultConfig])
    (by norm_num [certCfg, defaultConfig]) (by norm_num [certCfg, defaultConfig]) (fun _ _ => by norm_num) rfl (fun i hi => by
      obtain rfl : i = 0 := by simpa using hi
      rfl) h2 h3 h4 (fun j => if j = 0 then ![4] else ![3]) (fun _ => ![-1])
    (fun j hj => by
      have hj' : j ≤ 1 := hj
      rw [show (solve L scalarInt.callbacks _ 1 _ o 0 scratch ![4] _).1.control = scalarData from h1]
      interval_cases j <;> rfl)
    (fun j hj => by
      obtain rfl : j = 0 := by simpa using hj
      rw [show (solve L scalarInt.callbacks _ 1 _ o 0 scratch ![4] _).1.control = scalarData from h1]
      rfl)
    (fun _ => ⟨1, 1⟩) (fun _ => ⟨![4], ![-1], 1, 1, 0⟩) ⟨![3], 1⟩
    (fun j hj b => by
      obtain rfl : j = 0 := by simpa using hj
      simp [LQProblem.callbacks, scalarInt])
    (fun j hj b => by
      obtain rfl : j = 0 := by simpa using hj
      simp [LQProblem.callbacks, scalarInt])
    (fun b => by simp [LQProblem.callbacks, scalarInt])
    (f := 1) (l := 1) (μ := 1) zero_le_one zero_le_one one_pos
    ⟨fun _ _ => stretch_one, fun _ _ => stretch_one, fun _ _ => stretch_one, fun _ _ => stretch_one,
      fun _ _ v => by
        show Real.sqrt (((0 : Mat 1 1 ℝ) *ᵥ v) ⬝ᵥ ((0 : Mat 1 1 ℝ) *ᵥ v)) ≤ _
        rw [zero_mulVec, zero_dotProduct, Real.sqrt_zero, one_mul]; exact Real.sqrt_nonneg _,
      stretch_one, fun _ _ v => by
        show 1 * (v ⬝ᵥ v) ≤ v ⬝ᵥ (1 : Mat 1 1 ℝ) *ᵥ v
        rw [one_mul, one_mulVec]⟩
    (κ := 1 / 10 ^ 4 * 2) (fun j _ => by
      show _ * (Real.sqrt ((![-1] : Vec 1 ℝ) ⬝ᵥ ![-1]) + 1) ≤ _
      rw [hs1]; norm_num [certCfg, defaultConfig])
    (fun j => if j = 0 then ![7] else ![3]) rfl (fun j hj => by
      obtain rfl : j = 0 := by simpa using hj
      ext i; fin_cases i; norm_num)
  have hk0 := g3 0 (by simp)
  refine ⟨k 0, hk0.trans (by
      show _ * (Real.sqrt ((![-1] : Vec 1 ℝ) ⬝ᵥ ![-1]) + 1) ≤ _
      rw [hs1]; norm_num [certCfg, defaultConfig]), fun D w hD hw hl hu => ?_⟩
  have hcert : CertifiedPass L certCfg 1 (fun _ => fun _ => -1) (fun _ => fun _ => 1)
      (fun _ => ![-1]) (fun _ => ⟨1, 1⟩) (fun _ => ⟨![4], ![-1], 1, 1, 0⟩) lambda V k K := by
    intro j hj _
    obtain rfl : j = 0 := by omega
    have hV : V (0 + 1) = ⟨![3], 1⟩ := g4.term
    have hpd : (calcQ certCfg lambda (⟨1, 1⟩ : FDeriv 1 1 ℝ) ⟨![4], ![-1], 1, 1, 0⟩ (V (0 + 1))).QuuF.PosDef := by
      rw [hV]; exact calcQ_posDef g1 PosSemidef.one PosDef.one
    have hQu : (calcQ certCfg lambda (⟨1, 1⟩ : FDeriv 1 1 ℝ) ⟨![4], ![-1], 1, 1, 0⟩ (V (0 + 1))).Qu = ![2] := by
      rw [hV]; simp only [calcQ, mulVec_real]; ext i; fin_cases i; norm_num
    have hin : initialK (m := fun _ => 1) 1 ⟨k, K⟩ 0 = (0 : Vec 1 ℝ) := rfl
    rw [hQu, hin]
    obtain ⟨r, r1, _, r3, _⟩ := BoxQP.solve_at_kkt (L := L) (c := BoxQP.Config.default) (o := freshQP 1)
      (a := { H := (calcQ certCfg lambda (⟨1, 1⟩ : FDeriv 1 1 ℝ) ⟨![4], ![-1], 1, 1, 0⟩ (V (0 + 1))).QuuF, g := ![2],
              lower := (fun _ => -1) - ![-1], upper := (fun _ => 1) - ![-1], init := 0 }) hL hpd
      (fun i => by fin_cases i; norm_num) (by norm_num [BoxQP.Config.default]) (fun i hi => by
        exfalso
        rw [BoxQP.gradient_real] at hi
        fin_cases i
        norm_num [BoxQP.clampedFlags] at hi)
    exact ⟨r, r1, r3⟩
  have := g5 hcert D (fun _ => w) hD (fun j hj => by
      obtain rfl : j = 0 := by simpa using hj
      exact hw) (fun j _ i => by
      have : i = 0 := Subsingleton.elim _ _
      subst this
      exact ⟨hl, hu⟩)
  rw [show (solve L scalarInt.callbacks _ 1 certCfg o 0 scratch ![4] _).1.control = scalarData from h1] at this
  have hG : Real.sqrt (((![-1] : Vec 1 ℝ) + (1 : Mat 1 1 ℝ)ᵀ *ᵥ ![3]) ⬝ᵥ (![-1] + (1 : Mat 1 1 ℝ)ᵀ *ᵥ ![3])) = 2 := by
    rw [show (![-1] : Vec 1 ℝ) + (1 : Mat 1 1 ℝ)ᵀ *ᵥ ![3] = ![2] by ext i; fin_cases i; norm_num]
    rw [show (![2] : Vec 1 ℝ) ⬝ᵥ ![2] = 2 ^ 2 by norm_num [dotProduct]]
    exact Real.sqrt_sq (by norm_num)
  have hb : limitBound 1 1 1 certCfg.lambdaThre 0 = 3 + 2 / 10 ^ 5 := by
    norm_num [limitBound, qBound, eBound, vBound, certCfg, defaultConfig]
  have h13 : scalarData.costs.sum = 13 := by norm_num [scalarData]
  change scalarData.costs.sum ≤ D.costs.sum + ∑ j ∈ range 1, _ at this
  rw [sum_range_one, h13] at this
  change 13 ≤ D.costs.sum + (limitBound 1 1 1 certCfg.lambdaThre 0 * _ * _ + _ * Real.sqrt (((![-1] : Vec 1 ℝ) + (1 : Mat 1 1 ℝ)ᵀ *ᵥ ![3]) ⬝ᵥ
    (![-1] + (1 : Mat 1 1 ℝ)ᵀ *ᵥ ![3]))) at this
  rw [hG, hb] at this
  exact this

end Nmpc.DDP
