import Verif.DDP.GlobalProps

/-!
# Affine dynamics and uniformly convex costs: from linear to quadratic convergence (exact arithmetic, no limits)
-/

namespace Nmpc.DDP

set_option linter.unusedSectionVars false

open Matrix Finset

section Loop
variable {n : ℕ} {m : ℕ → ℕ} {L : LLT ℝ} {N : ℕ} {cfg : Config ℝ} {S : Stages n m ℝ} {x0 : Vec n ℝ}
  {cs : Ctrl n m ℝ} {r ρ M μ H κ : ℝ}

theorem devSq_self (c : Ctrl n m ℝ) : devSq N (devOf c c) = 0 := by simp [devSq, devOf]

/-- At the solution the cost is stationary. -/
theorem newton_stationary (hN : NewtonRegion N cfg S x0 cs r ρ M) (hr : 0 ≤ r) (b : Derivs n m ℝ) {e : Dev n m}
    (he : IsVar N (calcDerivs N cfg S cs b) e) : mdlLin N (calcDerivs N cfg S cs b) e = 0 := by
  have h := hN.grad cs b hN.sol (by rw [devSq_self, Real.sqrt_zero]; exact hr) e he
  rw [devSq_self, mul_zero, zero_mul] at h
  have h1 := abs_nonpos_iff.1 h
  rw [← h1]
  simp [mdlLin, mdlSlope, devOf, LDeriv.slope, VDeriv.slope]

/-- The distance from the solution in terms of the cost. -/
theorem gap_dist (hR : GlobalRegion N cfg S x0 μ H) (hN : NewtonRegion N cfg S x0 cs r ρ M) (hr : 0 ≤ r) (hμ : 0 < μ) (hκ0 : 0 < κ)
    (hκ : ∀ c b, Consistent N S x0 c → ∀ e, IsVar N (calcDerivs N cfg S c b) e → devSq N e ≤ κ * inSq N e)
    (b : Derivs n m ℝ) {c : Ctrl n m ℝ} (hc : Consistent N S x0 c) :
    μ * devSq N (devOf cs c) ≤ 2 * κ * (totalCost N c - totalCost N cs) := by
  have hv := devOf_isVar (hR.aff cs b hN.sol) hN.sol hc
  have h1 := (hR.cost cs b c hN.sol hc).1
  rw [newton_stationary hN hr b hv] at h1
  have h2 := mul_le_mul_of_nonneg_left (hκ cs b hN.sol _ hv) hμ.le
  have h3 := mul_le_mul_of_nonneg_left h1 hκ0.le
  linarith

/-- The loop: `j + 1` steps with linear convergence, then quadratic convergence. -/
theorem two_phase (hR : GlobalRegion N cfg S x0 μ H) (hN : NewtonRegion N cfg S x0 cs r ρ M) (hr : 0 ≤ r) (hμ : 0 < μ) (hμH : μ ≤ H)
    (hL : L.Exact) {a : ℝ} (hp : GlobalParams cfg μ H a) {as : List ℝ} (ha : cfg.alphaList = 1 :: as) (hk : 0 < cfg.kRelNormThre)
    (hlt : 0 < cfg.lambdaThre) (hκ0 : 0 < κ)
    (hκ : ∀ c b, Consistent N S x0 c → ∀ e, IsVar N (calcDerivs N cfg S c b) e → devSq N e ≤ κ * inSq N e)
    (hρ : 0 < ρ) (hM : 0 ≤ M) (hr1 : M * r ≤ 2 * ρ) (hr2 : 2 * (M * r) < 3 * ρ * (1 - cfg.costUpdateRatioThre))
    {G : ℝ} (hG : 2 * κ * G ≤ μ * r ^ 2) {lam : ℝ} (q iter j : ℕ) {s : Solver n m ℝ} (h0 : 0 ≤ s.lambda)
    (hlam : s.lambda ≤ lam) (hdl : 0 < s.dlambda) (hc : Consistent N S x0 s.ctrl) (hj : s.lambda < cfg.lambdaFactor ^ j * cfg.lambdaMin)
    (hgap : (1 - cfg.costUpdateRatioThre * a * μ / (H + lam)) ^ j * (totalCost N s.ctrl - totalCost N cs) ≤ G) :
    ∃ st fin, (optLoop L N cfg S q iter s).1.trace = s.trace ++ (st ++ fin) ∧ (∀ e ∈ st, a ≤ e.alpha) ∧
      (∀ e ∈ st.drop (j + 1), e.alpha = 1) ∧
      ((fin = [] ∧ (((optLoop L N cfg S q iter s).2 = .ok 0 ∧ st.length = q) ∨
          ((optLoop L N cfg S q iter s).2 = .ok 1 ∧ ∃ e, st.getLast? = some e ∧ e.actual < cfg.costUpdateThre))) ∨
        (∃ e, fin = [e] ∧ e.alpha = 0 ∧ e.kRelNorm < cfg.kRelNormThre ∧ (optLoop L N cfg S q iter s).2 = .ok 1) ∨
        √(devSq N (devOf cs (optLoop L N cfg S q iter s).1.ctrl)) = 0) ∧
      (j + 1 ≤ st.length → M / (2 * ρ) * √(devSq N (devOf cs (optLoop L N cfg S q iter s).1.ctrl)) ≤
        (M / (2 * ρ) * r) ^ 2 ^ (st.length - (j + 1))) := by
  have hH : 0 < H := hμ.trans_le hμH
  have hHl : 0 < H + lam := by linarith
  have ha1 := (hp.steps a hp.mem).2
  have hf0 : 0 < cfg.lambdaFactor := by linarith [hp.factor]
  have hMρ : 0 ≤ M / (2 * ρ) := by positivity
  have hball : ∀ (b : Derivs n m ℝ) c, Consistent N S x0 c → totalCost N c - totalCost N cs ≤ G → √(devSq N (devOf cs c)) ≤ r := by
    intro b c hc h
    have h1 := gap_dist hR hN hr hμ hκ0 hκ b hc
    have h2 := mul_le_mul_of_nonneg_left h (show 0 ≤ 2 * κ by positivity)
    exact (Real.sqrt_le_left hr).2 (le_of_mul_le_mul_left (by linarith) hμ)
  induction q generalizing iter s j with
  | zero => exact ⟨[], [], by simp [optLoop], by simp, by simp, .inl ⟨rfl, .inl ⟨rfl, rfl⟩⟩, by simp⟩
  | succ q ih =>
    rcases global_iter hR hμ hH.le hL hp (iter := iter) h0 hdl hc with
      hmin | ⟨s', e, h3, h4, h5, h6, h7, h7'⟩ | ⟨s', v, e, h3, h4, h5, h6, h7, h8, h9, h10, h11, h12, h13⟩
    · obtain ⟨h1, l, h2⟩ := optLoop_cost_trace (L := L) (N := N) (cfg := cfg) (S := S) hp.ratio (q + 1) iter s
      refine ⟨[], l, by simpa using h2, by simp, by simp, .inr (.inr ?_), by simp⟩
      have hcon : Consistent N S x0 (optLoop L N cfg S (q + 1) iter s).1.ctrl := optLoop_consistent _ _ hc
      have h3 := gap_dist hR hN hr hμ hκ0 hκ s.derivs hcon
      have h4 := h1.trans (hmin cs hN.sol)
      have h5 : devSq N (devOf cs (optLoop L N cfg S (q + 1) iter s).1.ctrl) ≤ 0 := by
        refine le_of_mul_le_mul_left ?_ hμ
        rw [mul_zero]
        refine h3.trans ?_
        have : 0 ≤ 2 * κ := by positivity
        nlinarith
      rw [Real.sqrt_eq_zero_of_nonpos h5]
    · refine ⟨[], [e], ?_, by simp, by simp, .inr (.inl ⟨e, rfl, h6, h7, ?_⟩), by simp⟩ <;> unfold optLoop <;> rw [h3]
      · exact h5
      · rfl
    · have hstep : totalCost N s'.ctrl - totalCost N cs ≤
          (1 - cfg.costUpdateRatioThre * a * μ / (H + lam)) * (totalCost N s.ctrl - totalCost N cs) := by
        have e1 := h13 cs hN.sol
        have e2 : (H + s.lambda) * e.actual ≤ (H + lam) * e.actual := mul_le_mul_of_nonneg_right (by linarith) h11.le
        have e3 : cfg.costUpdateRatioThre * a * μ / (H + lam) * (totalCost N s.ctrl - totalCost N cs) ≤ e.actual := by
          rw [div_mul_eq_mul_div, div_le_iff₀ hHl]
          linarith
        rw [h12]
        linarith
      have hth1 : 0 ≤ 1 - cfg.costUpdateRatioThre * a * μ / (H + lam) := by
        rw [sub_nonneg, div_le_one hHl]
        have h1 : cfg.costUpdateRatioThre * a ≤ 1 := by
          have := mul_le_mul hp.ratioLe ha1 hp.pos.le (by norm_num)
          linarith
        have h2 := mul_le_mul_of_nonneg_right h1 hμ.le
        linarith
      have hin : j = 0 → √(devSq N (devOf cs s'.ctrl)) ≤ r := by
        rintro rfl
        refine hball s.derivs _ h10 ?_
        simp only [pow_zero, one_mul] at hgap
        rw [h12]; linarith
      by_cases hv : e.actual < cfg.costUpdateThre
      · rw [if_pos hv] at h4
        subst h4
        refine ⟨[e], [], ?_, by simpa using h6, by simp, .inl ⟨rfl, .inr ⟨?_, ⟨e, rfl, hv⟩⟩⟩, ?_⟩ <;> unfold optLoop <;> rw [h3]
        · exact h5
        · rfl
        · intro hlen
          have hj0 : j = 0 := by simp at hlen; omega
          subst hj0
          simpa using mul_le_mul_of_nonneg_left (hin rfl) hMρ
      · rw [if_neg hv] at h4
        subst h4
        have heq : optLoop L N cfg S (q + 1) iter s = optLoop L N cfg S q (iter + 1) s' := by
          rw [optLoop, h3]; simp
        rw [heq]
        have hlast : ∀ st : List (Trace ℝ), (∃ e, st.getLast? = some e ∧ e.actual < cfg.costUpdateThre) →
            ∃ e', (e :: st).getLast? = some e' ∧ e'.actual < cfg.costUpdateThre := by
          rintro st ⟨e', k1, k2⟩
          refine ⟨e', ?_, k2⟩
          rw [List.getLast?_cons, k1]; rfl
        rcases j with _ | j
        · have hl0 : s'.lambda = 0 := h8.2.2 (by simpa using hj)
          obtain ⟨st, fin, i1, i2, i3, i4⟩ := newton_loop hN hL hp.unconstrained hp.first hp.min hk hlt ha hρ hM hr1 hr2 q (iter + 1)
            (s := s') hl0 h10 (hin rfl)
          refine ⟨e :: st, fin, by simp [i1, h5], ?_, by simpa using i2, ?_, fun _ => ?_⟩
          · intro e' he'
            rcases List.mem_cons.1 he' with rfl | he'
            · exact h6
            · rw [i2 e' he']; exact ha1
          · rcases i3 with ⟨j1, ⟨j2, j3⟩ | ⟨j2, j3⟩⟩ | h
            · exact .inl ⟨j1, .inl ⟨j2, by simp [j3]⟩⟩
            · exact .inl ⟨j1, .inr ⟨j2, hlast _ j3⟩⟩
            · exact .inr (.inl h)
          · refine i4.trans ?_
            simp only [List.length_cons, zero_add, Nat.add_sub_cancel]
            exact pow_le_pow_left₀ (mul_nonneg hMρ (Real.sqrt_nonneg _)) (mul_le_mul_of_nonneg_left (hin rfl) hMρ) _
        · have hj' : s'.lambda < cfg.lambdaFactor ^ j * cfg.lambdaMin := by
            refine lt_of_mul_lt_mul_left (h8.2.1.trans_lt (hj.trans_eq ?_)) hf0.le
            rw [pow_succ]; ring
          obtain ⟨st, fin, i1, i2, i3, i4, i5⟩ := ih (iter + 1) j h7 (h8.1.trans hlam) h9 h10 hj' (by
            refine le_trans ?_ hgap
            refine (mul_le_mul_of_nonneg_left hstep (pow_nonneg hth1 j)).trans (le_of_eq ?_)
            rw [pow_succ]; ring)
          refine ⟨e :: st, fin, by simp [i1, h5], by simpa using ⟨h6, i2⟩, by simpa using i3, ?_, fun h => ?_⟩
          · rcases i4 with ⟨j1, ⟨j2, j3⟩ | ⟨j2, j3⟩⟩ | h
            · exact .inl ⟨j1, .inl ⟨j2, by simp [j3]⟩⟩
            · exact .inl ⟨j1, .inr ⟨j2, hlast _ j3⟩⟩
            · exact .inr h
          · have := i5 (by simpa using h)
            simpa using this

end Loop

end Nmpc.DDP
