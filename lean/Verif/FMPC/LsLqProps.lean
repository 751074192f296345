import Verif.FMPC.LqLine

/-!
# FMPC with line search solves linear-quadratic problems in finitely many iterations (C144)
-/

set_option linter.unusedSectionVars false

namespace Nmpc.FMPC

open DDP (FDeriv LDeriv VDeriv timeAt)
open Matrix Finset Set Filter Topology

section Iter
variable {n : ℕ} {m p : ℕ → ℕ} {L : GainSolver ℝ} {N : ℕ} {cfg : Config ℝ} {S : Stages n m p ℝ} {x0 : Vec n ℝ} {D : LQData n m}

/-- An iteration on a linear-quadratic problem succeeds or takes a step. -/
theorem ls_total (h : IsLQ S D) (hD : D.Convex N) (hL : ExactGain L) (hdt : 0 < S.dt) (hU : cfg.updateBarrierEps = false)
    (hsc : cfg.scaleFromMultipliers = false) (iter : ℕ) (w : Solver n m p ℝ) :
    ∃ w' st, procOnce L N cfg S x0 iter w = .ok (w', st) ∧ ((st = .succeeded ∧ w'.var = w.var) ∨ (st = .iterationContinued ∧
      NewtonSystem N S.dt w'.eps x0 w.var (fun i => if i < N then calcCoeff S w.var i (w.coeff i) else w.coeff i)
        (calcTerm N S w.var w.term) w'.delta)) := by
  have hw : w.var.Pos N := pos_of_none h.none w.var
  have hout := procOnce_out (L := L) (N := N) (cfg := cfg) (S := S) (x0 := x0) iter w
  have hit : ∀ {w' st}, procOnce L N cfg S x0 iter w = .ok (w', st) → _ := fun {w' st} hq =>
    C30_iteration (w' := w') (st := st) hL hdt (h.convex hD) hw hq
  generalize hx : procOnce L N cfg S x0 iter w = x at hout hit
  cases hout with
  | ubEps hp =>
    unfold prepare at hp
    rw [hU] at hp
    cases hp
  | succeeded e he hk => exact ⟨_, _, rfl, .inl ⟨rfl, rfl⟩⟩
  | backward e he hk hb => rcases hit rfl with h1 | h1 <;> simp at h1
  | forward e he hk w2 hb hf => rcases hit rfl with h1 | h1 <;> simp at h1
  | update e he hk w2 hb w3 hf r hr =>
    have hupd : ∃ w4, r = .ok (true, w4) := by
      rw [← hr]
      unfold updateVariables
      dsimp only
      rw [alphaMax_none h.none, alphaMax_none h.none]
      have hok : alphaOk (1 : ℝ) 1 = true := by simp [alphaOk]
      rw [if_pos hok]
      have hlo := lineSearch_out (N := N) (cfg := cfg) (S := S) (x0 := x0) w3 1
      generalize lineSearch N cfg S x0 w3 1 = q at hlo
      cases hlo with
      | off => exact ⟨_, rfl⟩
      | on => exact ⟨_, rfl⟩
      | ub h1 hm => unfold setupMerit meritScale at hm; rw [hsc] at hm; cases hm
      | diverge h1 mt hm hb =>
        obtain ⟨k, -, h2, -⟩ := C36_line_search (armijo N S x0 { w3 with merit := mt }) (aMax := 1) one_pos le_rfl
        rw [hb] at h2
        cases h2
    obtain ⟨w4, rfl⟩ := hupd
    have hit' := hit rfl
    refine ⟨_, _, rfl, .inr ⟨rfl, ?_⟩⟩
    rcases hit' with h1 | h1
    · cases h1
    · exact h1.2

variable {X : ℕ → Vec n ℝ} {U : (i : ℕ) → Vec (m i) ℝ} {Λ ex : ℕ → Vec n ℝ} {eu : (i : ℕ) → Vec (m i) ℝ} {θ : ℝ}

/-- One iteration from a plan on the line through the solution that does not satisfy the dynamics: the next plan is again on the line,
the step is a full one or at least `violation / (2004 curvature)`, and it is a full one if the weighted residuals are not positive. -/
theorem ls_iter (h : IsLQCost S D) (hD : D.Convex N) (hL : ExactGain L) (hdt : 0 < S.dt) (hU : cfg.updateBarrierEps = false)
    (hls : cfg.enableLineSearch = true) (hsc : cfg.scaleFromMultipliers = false) (hZ : LqKkt D N S.dt x0 X U Λ) (hθ : 0 < θ)
    (hv : 0 < lqViol D N ex eu) (iter : ℕ) {w : Solver n m p ℝ} (hw : OnLine N X U ex eu θ w.var) :
    ∃ w' st, procOnce L N cfg S x0 iter w = .ok (w', st) ∧ ((st = .succeeded ∧ w'.var = w.var) ∨ (st = .iterationContinued ∧
      ∃ a, 0 < a ∧ a ≤ 1 ∧ OnLine N X U ex eu ((1 - a) * θ) w'.var ∧ (a = 1 → ∀ e, kktOf N x0 (prepared N S w' e) = 0) ∧
        (a = 1 ∨ (lqViol D N ex eu ≤ 2004 * (a * θ) * lqCurv D N S.dt ex eu ∧ 0 < lqWeighted D N Λ ex eu)) ∧
        (NoZeroResidual N S x0 w.var → ∀ g, g = θ * lqWeighted D N Λ ex eu - θ ^ 2 * lqCurv D N S.dt ex eu →
          (a = 1 ↔ 1 / 2 * (θ ^ 2 * lqCurv D N S.dt ex eu) < 999 / 1000 * (max (2 * g) (θ * lqViol D N ex eu / 1000) - g))))) := by
  obtain ⟨w', st, h1, h2⟩ := ls_total (cfg := cfg) (x0 := x0) h.toIsLQ hD hL hdt hU hsc iter w
  refine ⟨w', st, h1, h2.imp_right ?_⟩
  rintro ⟨rfl, hn⟩
  refine ⟨rfl, ?_⟩
  have hpos : w.var.Pos N := pos_of_none h.none w.var
  have hat := procOnce_newton hL hdt (h.toIsLQ.convex hD) hpos h1
  obtain ⟨hp, hc, ht, htl, -, a, aNu, a1, a2, -, -, haNu, hx, hu, hl⟩ := procOnce_step hpos h1
  obtain ⟨hm, hloop⟩ := hl hls
  rw [alphaMax_none h.none] at hloop haNu
  -- the direction leads to the solution
  obtain ⟨q1, q2, q3⟩ := hZ.unique hD hdt (newton_lqKkt h.toIsLQ hn)
  have dx : ∀ i ≤ N, w'.delta.x i = θ • ex i := fun i hi => by
    have := q1 i hi
    rw [hw.x i hi] at this
    linear_combination (norm := module) this
  have du : ∀ i < N, w'.delta.u i = θ • eu i := fun i hi => by
    have := q2 i hi
    rw [hw.u i hi] at this
    linear_combination (norm := module) this
  have hviol := hw.violation h.toIsLQ hZ hθ.le
  have hvpos : 0 < violation N S x0 w.var := by rw [hviol]; positivity
  have hcurv : lqCurv D N S.dt w'.delta.x w'.delta.u = θ ^ 2 * lqCurv D N S.dt ex eu := by
    unfold lqCurv
    rw [dx N le_rfl, mul_add, mul_sum]
    congr 1
    · refine sum_congr rfl fun i hi => ?_
      have hi := mem_range.1 hi
      rw [dx i hi.le, du i hi]
      simp only [mulVec_smul, smul_dotProduct, dotProduct_smul, smul_eq_mul]
      ring
    · simp only [mulVec_smul, smul_dotProduct, dotProduct_smul, smul_eq_mul]
      ring
  have hcurv' : curvature N S { w' with var := w.var } = θ ^ 2 * lqCurv D N S.dt ex eu := by
    rw [← hcurv]
    unfold curvature lqCurv
    dsimp only
    rw [ht, h.dφ]
    congr 1
    refine sum_congr rfl fun i hi => ?_
    have hi := mem_range.1 hi
    have e0 : ∑ j, w.var.nu i j / w.var.s i j * w'.delta.s i j ^ 2 = 0 := sum_eq_zero fun j _ => (fin_elim (h.none i) j).elim
    rw [e0, add_zero, (hc i hi).2.2.1, h.dl]
  have hweig : weighted N S x0 { w' with var := w.var } = θ * lqWeighted D N Λ ex eu := by
    unfold weighted lqWeighted
    dsimp only
    rw [hw.initRes hZ, q3 0 (Nat.zero_le _), mul_add, mul_sum, dotProduct_smul, smul_eq_mul]
    congr 1
    refine sum_congr rfl fun i hi => ?_
    have hi := mem_range.1 hi
    rw [hw.dynRes h.toIsLQ hZ hi, q3 (i + 1) hi, vec_none (h.none i) (ineqRes S w.var i), dotProduct_zero, add_zero, dotProduct_smul, smul_eq_mul]
  have hs : ∀ i < N, ∀ j, w.var.s i j ≠ 0 := fun i hi j => (fin_elim (h.none i) j).elim
  have hg : meritDerivObj N S { w' with var := w.var } = - curvature N S { w' with var := w.var } + weighted N S x0 { w' with var := w.var } :=
    meritDerivObj_newton hat hs
  obtain ⟨-, s2, s3⟩ := slope_eq hm hp
    (derivCorrect_of (h.trueDerivs hD) (fun i hi => ⟨(hc i hi).1, (hc i hi).2.1, (hc i hi).2.2.1⟩) ht) hs
  obtain ⟨p1, -, -, p4⟩ := penalty_slope hvpos (penalty_spec (w := { w' with var := w.var }) hsc hm)
  have hfun := (setupMerit_parts hm).2.1
  have hline : ∀ t : ℝ, t ≤ 1 → _ := fun t ht1 => merit_line (w := { w' with var := w.var }) (x0 := x0) h hD hp
    (fun i hi => ⟨by rw [← h.df i (w.var.x i) (w.var.u i) (w.coeff i).F]; exact (hc i hi).1,
      by rw [← h.dl i (w.var.x i) (w.var.u i) (w.coeff i).L]; exact (hc i hi).2.2.1⟩)
    (by rw [← h.dφ (w.var.x N) w.term.V]; exact ht) (eps := w'.eps) (scale := w'.merit.scale) (t := t) ht1
  have hsvm : w'.merit.scale * violation N S x0 w.var = max (2 * meritDerivObj N S { w' with var := w.var }) (violation N S x0 w.var / 1000) := by
    have e1 := penalty_spec (w := { w' with var := w.var }) hsc hm
    dsimp only at e1
    rw [e1, max_mul_of_nonneg _ _ hvpos.le]
    congr 1
    · field_simp
    · ring
  dsimp only at s2 s3 p1 hfun hline
  rw [hcurv'] at hg
  rw [hweig] at hg
  rw [hcurv] at hline
  have hh0 := lqCurv_nonneg hD hdt.le ex eu
  generalize hH : lqCurv D N S.dt ex eu = H at *
  generalize hG : meritDerivObj N S { w' with var := w.var } = g at *
  generalize hV : lqViol D N ex eu = V at *
  generalize hW : lqWeighted D N Λ ex eu = W at *
  have hsv : 1 / 1000 * violation N S x0 w.var ≤ w'.merit.scale * violation N S x0 w.var := mul_le_mul_of_nonneg_right p4 hvpos.le
  generalize hSV : w'.merit.scale * violation N S x0 w.var = sv at *
  -- the test of the line search
  have hacc : ∀ t, 0 < t → t ≤ 1 → t / 2 * (θ ^ 2 * H) < 999 / 1000 * (sv - g) → armijo N S x0 { w' with var := w.var } t = true := by
    intro t t0 t1 hlt
    unfold armijo
    rw [ltb_real, calcMerit_eq, lit_real]
    dsimp only
    rw [hline t t1, hfun, mul_assoc t, hSV]
    have e1 : t * (g - sv) ≤ t * w'.merit.deriv := mul_le_mul_of_nonneg_left s2 t0.le
    have e2 := mul_lt_mul_of_pos_left hlt t0
    push_cast
    nlinarith
  have hrejx : NoZeroResidual N S x0 w.var → ¬ 1 / 2 * (θ ^ 2 * H) < 999 / 1000 * (sv - g) → armijo N S x0 { w' with var := w.var } 1 = false := by
    intro hz hle
    unfold armijo
    rw [ltb_real_false, calcMerit_eq, lit_real]
    dsimp only
    rw [hline 1 le_rfl, hfun, mul_assoc 1, hSV, ← s3 hz]
    push_cast
    linarith
  have hgv : violation N S x0 w.var / 2000 ≤ sv - g := by
    have : -(w'.merit.scale / 2) * violation N S x0 w.var = - sv / 2 := by rw [← hSV]; ring
    linarith
  obtain ⟨k, -, k2, -, -, k5, k6, -⟩ := C36_line_search (armijo N S x0 { w' with var := w.var }) (aMax := 1) one_pos le_rfl
  rw [hloop] at k2
  have k2 := Option.some.inj k2
  refine ⟨a, a1, a2, ⟨fun i hi => ?_, fun i hi => ?_⟩, fun ha e => ?_, ?_, fun hz g' hg' => ?_⟩
  · rw [(hx i hi).1, hw.x i hi, dx i hi]; module
  · rw [(hu i hi).1, hw.u i hi, du i hi]; module
  · -- a full step
    subst ha
    refine LqKkt.kktOf h.toIsLQ ((newton_lqKkt h.toIsLQ hn).congr (fun i hi => ?_) (fun i hi => ?_) fun i hi => ?_) e
    · rw [(hx i hi).1, one_smul]
    · rw [(hu i hi).1, one_smul]
    · rw [(hx i hi).2, haNu, one_smul]
  · cases k with
    | zero => left; rw [k2]; norm_num
    | succ k =>
      right
      have hk := (k6 k (by omega)).2
      have hrej : ∀ t, 0 < t → t ≤ 1 → armijo N S x0 { w' with var := w.var } t = false → 999 / 1000 * (sv - g) ≤ t / 2 * (θ ^ 2 * H) := by
        intro t t0 t1 hf
        by_contra hlt
        rw [hacc t t0 t1 (not_le.1 hlt)] at hf
        cases hf
      have h2k : (1 : ℝ) / 2 ^ k = 2 * a := by rw [k2, pow_succ]; field_simp
      constructor
      · have h3 := hrej (1 / 2 ^ k) (by positivity) (by rw [div_le_one (by positivity)]; exact one_le_pow₀ (by norm_num)) hk
        rw [h2k] at h3
        rw [hviol] at hgv
        have h4 : θ * V ≤ θ * (2004 * (a * θ) * H) := by
          have h5 : 0 ≤ a * (θ ^ 2 * H) := by positivity
          nlinarith
        exact le_of_mul_le_mul_left h4 hθ
      · by_contra hneg
        have h3 := hrej 1 one_pos le_rfl (by
          have := (k6 0 (by omega)).2
          simpa using this)
        have h4 : θ * W ≤ 0 := mul_nonpos_of_nonneg_of_nonpos hθ.le (not_lt.1 hneg)
        have h5 : 0 ≤ θ ^ 2 * H := by positivity
        linarith
  · have hgg : g' = g := by rw [hg', hg]; ring
    rw [hgg, ← hviol, ← hsvm]
    constructor
    · intro ha
      by_contra hlt
      have h3 := hrejx hz hlt
      rw [← k2, ha, h3] at k5
      rcases k5 with k5 | k5
      · norm_num at k5
      · cases k5
    · intro hlt
      cases k with
      | zero => rw [k2]; norm_num
      | succ k =>
        have h3 := (k6 0 (by omega)).2
        rw [pow_zero, div_one, hacc 1 one_pos le_rfl (by linarith)] at h3
        cases h3

/-- The remaining iterations. -/
theorem ls_loop (h : IsLQCost S D) (hD : D.Convex N) (hL : ExactGain L) (hdt : 0 < S.dt) (hU : cfg.updateBarrierEps = false)
    (hls : cfg.enableLineSearch = true) (hsc : cfg.scaleFromMultipliers = false) (hth : 0 ≤ cfg.kktErrorThre)
    (hZ : LqKkt D N S.dt x0 X U Λ) (hv : 0 < lqViol D N ex eu) (r : ℕ) :
    ∀ (iter : ℕ) (st : Status) (θ : ℝ) (w : Solver n m p ℝ), 0 < θ → OnLine N X U ex eu θ w.var →
    (2004 * (θ * lqCurv D N S.dt ex eu) < (r - 1) * lqViol D N ex eu ∨ (lqWeighted D N Λ ex eu ≤ 0 ∧ 2 ≤ r)) →
    ∃ w' θ', optLoop L N cfg S x0 r iter st w = .ok (w', .succeeded) ∧ 0 ≤ θ' ∧ θ' ≤ θ ∧ OnLine N X U ex eu θ' w'.var ∧
      w.trace.length < w'.trace.length ∧
      (w'.trace.length : ℝ) ≤ w.trace.length + 2 + 2004 * (θ * lqCurv D N S.dt ex eu) / lqViol D N ex eu ∧
      (lqWeighted D N Λ ex eu ≤ 0 → w'.trace.length ≤ w.trace.length + 2) := by
  have hH := lqCurv_nonneg hD hdt.le ex eu
  induction r with
  | zero =>
    intro iter st θ w hθ _ hlt
    exfalso
    rcases hlt with hlt | ⟨-, hlt⟩
    · have : 0 ≤ θ * lqCurv D N S.dt ex eu := by positivity
      push_cast at hlt
      nlinarith
    · omega
  | succ r ih =>
    intro iter st θ w hθ hw hlt
    have hB : 0 ≤ 2004 * (θ * lqCurv D N S.dt ex eu) / lqViol D N ex eu := by positivity
    obtain ⟨w1, st1, h1, h2⟩ := ls_iter h hD hL hdt hU hls hsc hZ hθ hv iter hw
    obtain ⟨e1, -, -, ht1, -⟩ := procOnce_frame h1
    have ht1 : w1.trace.length = w.trace.length + 1 := by rw [ht1, List.length_append]; rfl
    have ht1' : (w1.trace.length : ℝ) = w.trace.length + 1 := by rw [ht1]; push_cast; ring
    rcases h2 with ⟨rfl, hv1⟩ | ⟨rfl, a, a0, a1, hw1, hfull, hstep, -⟩
    · refine ⟨w1, θ, ?_, hθ.le, le_rfl, by rw [hv1]; exact hw, by omega, by rw [ht1']; linarith, fun _ => by omega⟩
      unfold optLoop
      rw [h1]
      simp
    · have hun : optLoop L N cfg S x0 (r + 1) iter st w = optLoop L N cfg S x0 r (iter + 1) .iterationContinued w1 := by
        rw [optLoop, h1]
        simp
      by_cases ha : a = 1
      · subst ha
        obtain ⟨w2, h3, h4⟩ := lq_second (L := L) (cfg := cfg) (iter := iter + 1) hU hth (hfull rfl)
        obtain ⟨e2, -, -, ht2, -⟩ := procOnce_frame h3
        have ht2 : w2.trace.length = w.trace.length + 2 := by rw [ht2, List.length_append, ht1]; rfl
        have ht2' : (w2.trace.length : ℝ) = w.trace.length + 2 := by rw [ht2]; push_cast; ring
        have hr : r ≠ 0 := by
          rintro rfl
          rcases hlt with hlt | ⟨-, hlt⟩
          · have : 0 ≤ θ * lqCurv D N S.dt ex eu := by positivity
            push_cast at hlt
            nlinarith
          · omega
        obtain ⟨r, rfl⟩ := Nat.exists_eq_succ_of_ne_zero hr
        refine ⟨w2, (1 - 1) * θ, ?_, by simp, by simpa using hθ.le, by rw [h4]; exact hw1, by omega, by rw [ht2']; linarith, fun _ => by omega⟩
        rw [hun, optLoop, h3]
        simp
      · obtain ⟨g1, g2⟩ := hstep.resolve_left ha
        have hlt1 := hlt.resolve_right fun hc => absurd hc.1 (not_le.2 g2)
        have a1' : a < 1 := lt_of_le_of_ne a1 ha
        have hθ1 : 0 < (1 - a) * θ := mul_pos (by linarith) hθ
        have hlt2 : 2004 * ((1 - a) * θ * lqCurv D N S.dt ex eu) < (r - 1) * lqViol D N ex eu := by
          push_cast at hlt1
          nlinarith
        obtain ⟨w2, θ2, i1, i2, i3, i4, i5, i6, -⟩ := ih (iter + 1) .iterationContinued _ w1 hθ1 hw1 (.inl hlt2)
        refine ⟨w2, θ2, by rw [hun, i1], i2, i3.trans ?_, i4, by omega, i6.trans ?_, fun hc => absurd hc (not_le.2 g2)⟩
        · nlinarith
        · rw [ht1']
          have e1 : 2004 * ((1 - a) * θ * lqCurv D N S.dt ex eu) / lqViol D N ex eu ≤
              2004 * (θ * lqCurv D N S.dt ex eu) / lqViol D N ex eu - 1 := by
            rw [div_sub_one hv.ne', div_le_div_iff_of_pos_right hv]
            linarith
          linarith

end Iter

section Solve
variable {n : ℕ} {md pd : ℝ → ℕ} {L : GainSolver ℝ} {P : Callbacks n md pd} {dt : ℝ} {cfg : Config ℝ} {o : Obj n ℝ}
  {t0 : ℝ} {sc : Scratch n (fun i => md (timeAt t0 dt i)) (fun i => pd (timeAt t0 dt i)) ℝ} {x0 : Vec n ℝ}
  {init : VarL n ℝ}

/-- **C144**, the optimality conditions of a convex linear-quadratic problem without inequality constraints have a solution
(`LqKkt.unique`: only one).  `D` is any linear-quadratic problem, no solver is involved. -/
theorem C144_solution {n : ℕ} {m : ℕ → ℕ} {D : LQData n m} {N : ℕ} (hD : D.Convex N) {dt : ℝ} (hdt : 0 < dt) (x0 : Vec n ℝ) :
    ∃ X U Λ, LqKkt D N dt x0 X U Λ ∧ ∀ X' U' Λ', LqKkt D N dt x0 X' U' Λ' →
      (∀ i ≤ N, X' i = X i) ∧ (∀ i < N, U' i = U i) ∧ ∀ i ≤ N, Λ' i = Λ i := by
  classical
  let S : Stages n m (fun _ => 0) ℝ :=
    { dt := dt, f := fun i x u => D.A i *ᵥ x + D.B i *ᵥ u + D.a i, l := fun _ _ _ => 0, φ := fun _ => 0, g := fun _ _ _ => 0,
      df := fun i _ _ _ => ⟨D.A i, D.B i⟩, dg := fun _ _ _ b => b,
      dl := fun i x u _ => ⟨D.Q i *ᵥ x + D.M i *ᵥ u + D.q i, (D.M i)ᵀ *ᵥ x + D.R i *ᵥ u + D.r i, D.Q i, D.R i, D.M i⟩,
      dφ := fun x _ => ⟨D.Qf *ᵥ x + D.qf, D.Qf⟩ }
  let L : GainSolver ℝ := { ok := fun A => decide A.PosDef, ldlt := fun A b => A⁻¹ *ᵥ b, lu := fun A b => A⁻¹ *ᵥ b }
  have hL : ExactGain L :=
    { ldlt := fun A b _ h _ => by simp [L, mulVec_mulVec, mul_nonsing_inv A h]
      lu := fun A b h => by simp [L, mulVec_mulVec, mul_nonsing_inv A h]
      ok := fun A h => by simp [L, h] }
  have hS : IsLQ S D := ⟨fun _ => rfl, fun _ _ _ => rfl, fun _ _ _ _ => rfl, fun _ _ _ _ => rfl, fun _ _ => rfl⟩
  let v : Var n m (fun _ => 0) ℝ := ⟨fun _ => 0, fun _ => 0, fun _ => 0, fun _ => 0, fun _ => 0⟩
  let w : Solver n m (fun _ => 0) ℝ :=
    { var := v, delta := v, coeff := fun _ => ⟨⟨0, 0⟩, ⟨0, 0⟩, ⟨0, 0, 0, 0, 0⟩, 0, 0, 0, 0, 0, 0, 0, 0⟩, term := ⟨⟨0, 0⟩, 0, 0, 0, []⟩,
      eps := 1, merit := ⟨0, 0, 0⟩, trace := [] }
  obtain ⟨w2, w3, -, -, h3⟩ := C30_convex (cfg := (⟨0, 0, 0, 0, false, false, false, false, false, false⟩ : Config ℝ)) (S := S) (x0 := x0) hL hdt (pos_of_none (fun _ => rfl) _)
    ((hS.convex hD).model (x0 := x0) w 1 0)
  have hk := newton_lqKkt hS h3
  exact ⟨_, _, _, hk, fun X' U' Λ' h' => hk.unique hD hdt h'⟩

/-- **C144.**  Convex linear-quadratic problem without inequality constraints, line search enabled, default choice of the penalty weight,
`update_barrier_eps = false`, an initial variable that violates the dynamics or the initial condition.  `(X, U, Λ)` is the solution, the violation is
that of the initial variable, the curvature is the second derivative of the cost along the segment from the initial variable to the solution.
If `2004 curvature < (max_iter - 1) violation`, then `solve` returns `Succeeded` after at most `2 + 2004 curvature / violation` iterations, and the
returned plan is a point of that segment.  The same with two iterations, for every curvature, if the residuals weighted by the multipliers of
the solution are not positive. -/
theorem C144_line_search {D : LQData n (fun i => md (timeAt t0 dt i))} (hP : IsLQCost (stagesOf P t0 dt cfg.horizon.toNat) D)
    (hD : D.Convex cfg.horizon.toNat) (hL : ExactGain L) (hdt : 0 < dt) (hU : cfg.updateBarrierEps = false)
    (hls : cfg.enableLineSearch = true) (hsc : cfg.scaleFromMultipliers = false) (hI : cfg.initComplementary = false)
    (hth : 0 ≤ cfg.kktErrorThre) (hl : LengthsOk cfg.horizon init) (hd : DimsOk md pd t0 dt init) (hn : NonNeg init)
    {X : ℕ → Vec n ℝ} {U : (i : ℕ) → Vec (md (timeAt t0 dt i)) ℝ} {Λ : ℕ → Vec n ℝ} (hZ : LqKkt D cfg.horizon.toNat dt x0 X U Λ)
    {v0 : Var n (fun i => md (timeAt t0 dt i)) (fun i => pd (timeAt t0 dt i)) ℝ} (hv0 : v0 = init.toVar)
    (hv : 0 < violation cfg.horizon.toNat (stagesOf P t0 dt cfg.horizon.toNat) x0 v0)
    {curv weig : ℝ} (hcurv : curv = lqCurv D cfg.horizon.toNat dt (fun i => X i - v0.x i) (fun i => U i - v0.u i))
    (hweig : weig = lqWeighted D cfg.horizon.toNat Λ (fun i => X i - v0.x i) (fun i => U i - v0.u i))
    (hm : 2004 * curv < (cfg.maxIter - 1) * violation cfg.horizon.toNat (stagesOf P t0 dt cfg.horizon.toNat) x0 v0 ∨ (weig ≤ 0 ∧ 2 ≤ cfg.maxIter)) :
    ∃ o' v θ, solve L P dt cfg o t0 sc x0 init = (o', .ok .succeeded) ∧ o'.var = Var.out cfg.horizon.toNat v ∧ 0 ≤ θ ∧ θ ≤ 1 ∧
      OnLine (p := fun i => pd (timeAt t0 dt i)) cfg.horizon.toNat X U (fun i => X i - v0.x i) (fun i => U i - v0.u i) θ v ∧
      (o'.trace.length : ℝ) ≤ 2 + 2004 * curv / violation cfg.horizon.toNat (stagesOf P t0 dt cfg.horizon.toNat) x0 v0 ∧
      (weig ≤ 0 → o'.trace.length ≤ 2) := by
  have hN : cfg.horizon.toNat = init.us.length := by have := hl.2.1; omega
  rw [hN] at hP hD hZ hv hm hcurv hweig ⊢
  have hc : checkVariable md pd t0 dt cfg.horizon init = .ok () := (checkVariable_iff init).2.2.2 ⟨hl, hd, hn⟩
  set S := stagesOf P t0 dt init.us.length with hS
  set w0 := initSolver (m := fun i => md (timeAt t0 dt i)) (p := fun i => pd (timeAt t0 dt i)) init o.eps sc with hw0
  have hrun : ∀ w st, optLoop L init.us.length cfg S x0 cfg.maxIter.toNat 1 .uninitialized w0 = .ok (w, st) →
      w.trace ≠ [] → st = .succeeded →
      solve L P dt cfg o t0 sc x0 init = ({ var := w.var.out init.us.length, trace := w.trace, eps := w.eps }, .ok .succeeded) := by
    intro w st h1 h2 h3
    unfold solve runSolver
    simp only [hI, Bool.false_eq_true, if_false, hc, ← hS, ← hw0, h1, Res.bind_ok, h2, and_false, h3]
    rfl
  have hw : OnLine init.us.length X U (fun i => X i - v0.x i) (fun i => U i - v0.u i) 1 v0 := ⟨fun i _ => by module, fun i _ => by module⟩
  have hviol := hw.violation hP.toIsLQ hZ zero_le_one
  rw [one_mul] at hviol
  rw [hviol] at hv hm ⊢
  have hw' : OnLine init.us.length X U (fun i => X i - v0.x i) (fun i => U i - v0.u i) 1 w0.var := by
    have : w0.var = v0 := by rw [hv0]; rfl
    rw [this]; exact hw
  have hm' : 2004 * (1 * curv) < ((cfg.maxIter.toNat : ℝ) - 1) * lqViol D init.us.length (fun i => X i - v0.x i) (fun i => U i - v0.u i) ∨
      (weig ≤ 0 ∧ 2 ≤ cfg.maxIter.toNat) := by
    rcases hm with hm | ⟨h1, h2⟩
    · left
      have : (cfg.maxIter : ℝ) ≤ (cfg.maxIter.toNat : ℝ) := by exact_mod_cast Int.self_le_toNat _
      nlinarith
    · exact .inr ⟨h1, by omega⟩
  subst hcurv hweig
  obtain ⟨w', θ, h1, h2, h3, h4, h5, h6, h7⟩ := ls_loop (x0 := x0) (L := L) hP hD hL hdt hU hls hsc hth hZ hv cfg.maxIter.toNat 1 .uninitialized 1 w0
    one_pos hw' hm'
  have hlen : w0.trace.length = 0 := rfl
  refine ⟨_, w'.var, θ, hrun w' .succeeded h1 ?_ rfl, rfl, h2, h3, h4, ?_, ?_⟩
  · intro h0; rw [h0] at h5; simp at h5
  · rw [hlen, one_mul, Nat.cast_zero, zero_add] at h6; exact h6
  · intro hc; have := h7 hc; rwa [hlen, zero_add] at this

/-- **C144**, the full step is not always accepted: the same setting with two iterations and the tolerance 0, no residual of the initial variable is
zero, and half the curvature is at least `0.999 (max (2 g) (violation / 1000) - g)`, where `g` is the slope of the cost (weighted residuals minus
curvature).  Then `solve` returns `MaxIterationReached`, whereas without line search (`C43_lq`) it returns `Succeeded`. -/
theorem C144_rejected {D : LQData n (fun i => md (timeAt t0 dt i))} (hP : IsLQCost (stagesOf P t0 dt cfg.horizon.toNat) D)
    (hD : D.Convex cfg.horizon.toNat) (hL : ExactGain L) (hdt : 0 < dt) (hU : cfg.updateBarrierEps = false)
    (hls : cfg.enableLineSearch = true) (hsc : cfg.scaleFromMultipliers = false) (hI : cfg.initComplementary = false)
    (hth : cfg.kktErrorThre = 0) (hl : LengthsOk cfg.horizon init) (hd : DimsOk md pd t0 dt init) (hn : NonNeg init)
    {X : ℕ → Vec n ℝ} {U : (i : ℕ) → Vec (md (timeAt t0 dt i)) ℝ} {Λ : ℕ → Vec n ℝ} (hZ : LqKkt D cfg.horizon.toNat dt x0 X U Λ)
    {v0 : Var n (fun i => md (timeAt t0 dt i)) (fun i => pd (timeAt t0 dt i)) ℝ} (hv0 : v0 = init.toVar)
    {viol curv weig : ℝ} (hviol : viol = violation cfg.horizon.toNat (stagesOf P t0 dt cfg.horizon.toNat) x0 v0) (hv : 0 < viol)
    (hcurv : curv = lqCurv D cfg.horizon.toNat dt (fun i => X i - v0.x i) (fun i => U i - v0.u i))
    (hweig : weig = lqWeighted D cfg.horizon.toNat Λ (fun i => X i - v0.x i) (fun i => U i - v0.u i))
    (hz : NoZeroResidual cfg.horizon.toNat (stagesOf P t0 dt cfg.horizon.toNat) x0 v0)
    (hr : 999 / 1000 * (max (2 * (weig - curv)) (viol / 1000) - (weig - curv)) ≤ 1 / 2 * curv) (hm : cfg.maxIter = 2) :
    ∃ o', solve L P dt cfg o t0 sc x0 init = (o', .ok .maxIterationReached) := by
  have hN : cfg.horizon.toNat = init.us.length := by have := hl.2.1; omega
  rw [hN] at hP hD hZ hviol hcurv hweig hz
  have hc : checkVariable md pd t0 dt cfg.horizon init = .ok () := (checkVariable_iff init).2.2.2 ⟨hl, hd, hn⟩
  set S := stagesOf P t0 dt init.us.length with hS
  set w0 := initSolver (m := fun i => md (timeAt t0 dt i)) (p := fun i => pd (timeAt t0 dt i)) init o.eps sc with hw0
  have hw : OnLine init.us.length X U (fun i => X i - v0.x i) (fun i => U i - v0.u i) 1 v0 := ⟨fun i _ => by module, fun i _ => by module⟩
  have hv1 := hw.violation hP.toIsLQ hZ zero_le_one
  rw [one_mul] at hv1
  have hw0v : w0.var = v0 := by rw [hv0]; rfl
  -- no success at a plan that violates the dynamics
  have hno : ∀ {iter} {w w' : Solver n (fun i => md (timeAt t0 dt i)) (fun i => pd (timeAt t0 dt i)) ℝ} {st}, 0 < violation init.us.length S x0 w.var →
      procOnce L init.us.length cfg S x0 iter w = .ok (w', st) → st ≠ .succeeded := by
    intro iter w w' st hpos h1 h2
    obtain ⟨e, -, -, -, -, h3, -⟩ := procOnce_frame h1
    have h4 := h3.1 h2
    rw [leb_real, hth] at h4
    obtain ⟨g1, -, g3⟩ := ((kktOf_prepared init.us.length w e 0).1 h4).each
    refine hpos.ne' ?_
    unfold violation
    have e1 : ∑ j, |initRes x0 w.var j| = 0 := sum_eq_zero fun j _ => le_antisymm (g1 j) (abs_nonneg _)
    rw [e1, zero_add]
    refine sum_eq_zero fun i hi => ?_
    have hi := mem_range.1 hi
    have e2 : ∑ j, |dynRes S w.var i j| = 0 := sum_eq_zero fun j _ => le_antisymm ((g3 i hi).1 j) (abs_nonneg _)
    have e3 : ∑ j, |ineqRes S w.var i j| = 0 := sum_eq_zero fun j _ => (fin_elim (hP.none i) j).elim
    rw [e2, e3, zero_add]
  have hw' : OnLine init.us.length X U (fun i => X i - v0.x i) (fun i => U i - v0.u i) 1 w0.var := by rw [hw0v]; exact hw
  have hlv : 0 < lqViol D init.us.length (fun i => X i - v0.x i) (fun i => U i - v0.u i) := by rw [← hv1, ← hviol]; exact hv
  obtain ⟨w1, st1, h1, h2⟩ := ls_iter (x0 := x0) (L := L) hP hD hL hdt hU hls hsc hZ one_pos hlv 1 hw'
  rcases h2 with ⟨rfl, -⟩ | ⟨rfl, a, a0, a1, hw1, -, -, hiff⟩
  · exact absurd rfl (hno (by rw [hw0v, ← hviol]; exact hv) h1)
  have ha : a ≠ 1 := by
    intro ha
    have h3 := (hiff (by rw [hw0v]; exact hz) (weig - curv) (by rw [hweig, hcurv, one_pow, one_mul, one_mul]; rfl)).1 ha
    rw [one_pow, one_mul, one_mul, ← hv1, ← hviol] at h3
    have h4 : lqCurv D init.us.length S.dt (fun i => X i - v0.x i) (fun i => U i - v0.u i) = curv := hcurv.symm
    rw [h4] at h3
    linarith
  have hθ : 0 < (1 - a) * 1 := by
    have := lt_of_le_of_ne a1 ha
    linarith
  obtain ⟨w2, st2, h3, h4⟩ := ls_iter (x0 := x0) (L := L) hP hD hL hdt hU hls hsc hZ hθ hlv 2 hw1
  have hst2 : st2 = .iterationContinued := by
    rcases h4 with ⟨rfl, -⟩ | ⟨h4, -⟩
    · refine absurd rfl (hno ?_ h3)
      rw [hw1.violation hP.toIsLQ hZ hθ.le]
      positivity
    · exact h4
  subst hst2
  have ht2 : w2.trace ≠ [] := by
    obtain ⟨e2, -, -, ht2, -⟩ := procOnce_frame h3
    rw [ht2]; simp
  have hloop : optLoop L init.us.length cfg S x0 cfg.maxIter.toNat 1 .uninitialized w0 = .ok (w2, .iterationContinued) := by
    rw [hm]
    show optLoop L init.us.length cfg S x0 2 1 .uninitialized w0 = _
    rw [optLoop, h1]
    simp only [Res.bind_ok, ne_eq, not_true_eq_false, if_false]
    rw [optLoop, h3]
    simp only [Res.bind_ok, ne_eq, not_true_eq_false, if_false]
    rfl
  refine ⟨{ var := w2.var.out init.us.length, trace := w2.trace, eps := w2.eps }, ?_⟩
  unfold solve runSolver
  simp only [hI, Bool.false_eq_true, if_false, hc, ← hS, ← hw0, hloop, Res.bind_ok, ht2, and_false]
  rfl

end Solve
end Nmpc.FMPC
