import Verif.DDP.ClosedLoopProps
import Verif.DDP.ComplexityExample
import Verif.Problems.Mpc

/-!
# C120: cases, and what happens without the condition on the terminal cost
-/

set_option linter.unusedSectionVars false

namespace Nmpc.DDP

open Matrix Finset

/-- `x' = 2x + u` with running cost `(q x² + u²)/2` and terminal cost `qf x²/2`. -/
noncomputable def doubling (q qf : ℝ) : LQProblem 1 (fun _ => 1) where
  A _ := fun _ _ => 2
  B _ := fun _ _ => 1
  c _ := 0
  Q _ := fun _ _ => q
  M _ := 0
  R _ := 1
  q _ := 0
  r _ := 0
  e _ := 0
  Qf _ := fun _ _ => qf
  qf _ := 0
  ef _ := 0
  symmQ _ := rfl
  symmR _ := isSymm_one
  symmQf _ := rfl

section
variable {q qf t : ℝ} {x u : Vec 1 ℝ}

theorem doubling_run : (doubling q qf).callbacks.runningCost t x u = 1 / 2 * (q * x 0 ^ 2 + u 0 ^ 2) := by
  simp [doubling, LQProblem.callbacks, dotProduct, mulVec]; ring

theorem doubling_term : (doubling q qf).callbacks.terminalCost t x = 1 / 2 * (qf * x 0 ^ 2) := by
  simp [doubling, LQProblem.callbacks, dotProduct, mulVec]; ring

theorem doubling_eq : (doubling q qf).callbacks.stateEq t x u = ![2 * x 0 + u 0] := by
  ext i; fin_cases i; simp [doubling, LQProblem.callbacks, dotProduct, mulVec]

theorem doubling_convex (hq : 0 ≤ q) (hf : 0 ≤ qf) : (doubling q qf).Convex where
  stage t x u := by
    have h1 : x ⬝ᵥ (doubling q qf).Q t *ᵥ x = q * x 0 ^ 2 := by simp [doubling, dotProduct, mulVec]; ring
    have h2 : x ⬝ᵥ (doubling q qf).M t *ᵥ u = 0 := by simp [doubling]
    have h3 : u ⬝ᵥ (doubling q qf).R t *ᵥ u = u 0 ^ 2 := by simp [doubling, dotProduct]; ring
    rw [h1, h2, h3]; positivity
  input t := PosDef.one
  term t := by
    refine posSemidef_iff.2 ⟨rfl, fun v => ?_⟩
    have h1 : v ⬝ᵥ (doubling q qf).Qf t *ᵥ v = qf * v 0 ^ 2 := by simp [doubling, dotProduct, mulVec]; ring
    rw [h1]; positivity

end

/-- The default configuration without regularisation and without the test of the feedforward norm. -/
noncomputable def exactConfig (maxIter horizon : ℤ) : Config ℝ :=
  { defaultConfig [1] maxIter horizon with initialLambda := 0, kRelNormThre := 0 }

theorem exactConfig_ok {md : ℝ → ℕ} (lim : Option ((t : ℝ) → Vec (md t) ℝ × Vec (md t) ℝ)) (maxIter : ℤ) (N : ℕ) :
    RoundOk lim N (exactConfig maxIter N) :=
  ⟨rfl, by norm_num [exactConfig, defaultConfig], by norm_num [exactConfig, defaultConfig], rfl, by simp [exactConfig, defaultConfig]⟩

/-- **C120** (case) `x' = 2x + u`, `l = (x² + u²)/2`, `φ = 5x²/2`: the terminal cost decreases along `u = -2x`, so for every horizon
`N ≥ 2` and every number of rounds the closed loop satisfies `x_k² ≤ 5 (4/5)^k x_0²`. -/
example {N : ℕ} (hN : 2 ≤ N) (maxIter : ℤ) (hm : 1 ≤ maxIter) (endT : ℝ) (x0 : Vec 1 ℝ) (o : Obj 1 ℝ)
    (scr : ℕ → (t : ℝ) → Scratch 1 (fun i => (fun _ : ℝ => 1) (timeAt t 1 i)) ℝ) :
    ∃ s D X U E, mpcLoop exactLLT (doubling 1 5).callbacks none 1 (fun _ => exactConfig maxIter N) scr (fun _ => shiftRepeat) endT o 0 x0
        (zeroInputs (fun _ => 1) 0 1 N) = .ok s ∧ s.k = ⌈(endT - 0) / 1⌉₊ ∧
      Plans (doubling 1 5).callbacks 1 0 x0 N s D X U E ∧ ∀ k ≤ s.k, X k 0 ^ 2 ≤ 5 / 2 / (1 / 2) * (1 - 1 / 2 / (5 / 2)) ^ k * x0 0 ^ 2 :=
  C120_linear_quadratic exactLLT_exact (doubling_convex (by norm_num) (by norm_num)) one_pos hN (shiftRepeat_ok hN fun _ _ => rfl)
    (fun _ => exactConfig_ok none maxIter N) (fun _ => rfl) (fun _ => by norm_num [exactConfig]) (fun _ => ⟨[], rfl⟩)
    (fun _ => ⟨by norm_num [exactConfig, defaultConfig], by norm_num [exactConfig, defaultConfig]⟩) (fun _ => rfl) (fun _ => hm)
    zeroInputs_ok.1 zeroInputs_ok.2 (κ := fun _ x => ![-2 * x 0])
    (fun t x => by rw [doubling_run, doubling_eq, doubling_term, doubling_term]; simp; nlinarith [sq_nonneg (x 0)])
    (σ := fun _ x => x 0 ^ 2) (fun _ _ => sq_nonneg _) (by norm_num) (by norm_num)
    (fun t x u => by rw [doubling_run]; nlinarith [sq_nonneg (u 0)]) (fun t x => by rw [doubling_term]; positivity)
    (fun t x => by rw [doubling_term]; linarith)

/-- The optimal plan over two steps without terminal cost. -/
noncomputable def doublingPlan (x : ℝ) : ControlData 1 ℝ where
  xs := [![x], ![8 / 5 * x], ![16 / 5 * x]]
  us := [⟨1, ![-(2 / 5) * x]⟩, ⟨1, ![0]⟩]
  costs := [1 / 2 * (1 / 4 * x ^ 2 + (-(2 / 5) * x) ^ 2), 1 / 2 * (1 / 4 * (8 / 5 * x) ^ 2), 0]

theorem doublingPlan_traj (t : ℝ) (x : Vec 1 ℝ) : IsTrajectory (doubling (1 / 4) 0).callbacks t 1 2 x (doublingPlan (x 0)) where
  lenX := rfl
  lenU := rfl
  lenC := rfl
  start := by simp only [doublingPlan, List.getElem?_cons_zero]; congr 1; ext i; fin_cases i; rfl
  step i hi := by
    interval_cases i
    · refine ⟨x, ![-(2 / 5) * x 0], ?_, rfl, ?_, ?_⟩
      · simp only [doublingPlan, List.getElem?_cons_zero]; congr 1; ext i; fin_cases i; rfl
      · rw [doubling_eq]; simp only [doublingPlan, List.getElem?_cons_succ, List.getElem?_cons_zero]; congr 2; simp; ring
      · rw [doubling_run]; simp [doublingPlan]
    · refine ⟨![8 / 5 * x 0], ![0], rfl, rfl, ?_, ?_⟩
      · rw [doubling_eq]; simp only [doublingPlan, List.getElem?_cons_succ, List.getElem?_cons_zero]; congr 2; simp; ring
      · rw [doubling_run]; simp [doublingPlan]
  term := ⟨![16 / 5 * x 0], rfl, by rw [doubling_term]; simp [doublingPlan]⟩

theorem doublingPlan_le {t : ℝ} {x : Vec 1 ℝ} {d : ControlData 1 ℝ} (h : IsTrajectory (doubling (1 / 4) 0).callbacks t 1 2 x d) :
    (doublingPlan (x 0)).costs.sum ≤ d.costs.sum := by
  obtain ⟨y, u, h1, _, h2, h3⟩ := h.step 0 (by norm_num)
  obtain rfl : y = x := Option.some.inj (h1.symm.trans h.start)
  obtain ⟨z, v, h4, _, _, h5⟩ := h.step 1 (by norm_num)
  obtain rfl := Option.some.inj (h4.symm.trans h2)
  obtain ⟨w, _, h6⟩ := h.term
  have hl := h.lenC
  obtain ⟨a, b, c, hd⟩ : ∃ a b c, d.costs = [a, b, c] := List.length_eq_three.1 hl
  rw [hd] at h3 h5 h6 ⊢
  simp only [List.getElem?_cons_zero, List.getElem?_cons_succ, Option.some.injEq, doubling_run, doubling_term, doubling_eq] at h3 h5 h6
  simp only [doublingPlan, List.sum_cons, List.sum_nil, h3, h5, h6, Matrix.cons_val_zero]
  nlinarith [sq_nonneg (u 0 + 2 / 5 * y 0), sq_nonneg (v 0)]

/-- **C120** (the condition on the terminal cost cannot be dropped) For `x' = 2x + u`, `l = (x²/4 + u²)/2` without terminal cost and
a horizon of two steps every round ends at the minimal cost, yet the closed loop diverges: `x_k = (8/5)^k x_0`. -/
theorem C120_unstable {L : LLT ℝ} (hL : L.Exact) (maxIter : ℤ) (hm : 1 ≤ maxIter) (endT : ℝ) (x0 : Vec 1 ℝ) (o : Obj 1 ℝ) (lim)
    (scr : ℕ → (t : ℝ) → Scratch 1 (fun i => (fun _ : ℝ => 1) (timeAt t 1 i)) ℝ) :
    ∃ s D X U E, mpcLoop L (doubling (1 / 4) 0).callbacks lim 1 (fun _ => exactConfig maxIter 2) scr (fun _ => shiftRepeat) endT o 0 x0
        (zeroInputs (fun _ => 1) 0 1 2) = .ok s ∧ s.k = ⌈endT⌉₊ ∧ Plans (doubling (1 / 4) 0).callbacks 1 0 x0 2 s D X U E ∧
      (∀ k < s.k, ∀ d, IsTrajectory (doubling (1 / 4) 0).callbacks (0 + k * 1) 1 2 (X k) d → (D k).costs.sum ≤ d.costs.sum) ∧
      ∀ k ≤ s.k, X k 0 = (8 / 5) ^ k * x0 0 := by
  have hc : ∀ _ : ℕ, RoundOk lim 2 (exactConfig maxIter 2) := fun _ => exactConfig_ok lim maxIter 2
  have hs : ShiftOk (fun _ : ℝ => 1) 1 2 fun _ => shiftRepeat := shiftRepeat_ok le_rfl fun _ _ => rfl
  have hz := zeroInputs_ok (md := fun _ : ℝ => 1) (t0 := 0) (dt := 1) (N := 2)
  obtain ⟨s, O, X, W, h1, h2, h3⟩ := mpcLoop_rounds (L := L) (P := (doubling (1 / 4) 0).callbacks) (scr := scr) (endT := endT) (o := o) (x0 := x0)
    one_pos (by norm_num) hs hc hz.1 hz.2
  obtain ⟨U, E, h4⟩ := h3.plans (by norm_num) hs hc hz.1 hz.2
  have hmin : ∀ k < s.k, ∀ d, IsTrajectory (doubling (1 / 4) 0).callbacks (0 + k * 1) 1 2 (X k) d →
      (O (k + 1)).control.costs.sum ≤ d.costs.sum ∧ (d.costs.sum = (O (k + 1)).control.costs.sum → d = (O (k + 1)).control) := by
    intro k hk d hd
    obtain ⟨h5, h6, -⟩ := h3.warm_ok hs hc hz.1 hz.2 hk.le
    obtain ⟨⟨b, h7⟩, -⟩ := h3.round k hk
    have h8 := lq_solve_exact (L := L) (lim := lim) (cfg := exactConfig maxIter 2) (o := O k) (x0 := X k) (us := W k)
      (scratch := scr k (0 + k * 1)) hL
      (doubling_convex (q := 1 / 4) (qf := 0) (by norm_num) le_rfl) rfl rfl (by norm_num [exactConfig]) (as := []) rfl
      (by norm_num [exactConfig, defaultConfig]) (by norm_num [exactConfig, defaultConfig]) rfl hm (by rw [h5]; rfl) h6 (d := d)
      (by rw [h5]; exact hd)
    rwa [h7] at h8
  refine ⟨s, _, X, U, E, h1, by simpa using h2, h4, fun k hk d hd => (hmin k hk d hd).1, ?_⟩
  intro k
  induction k with
  | zero => intro _; rw [h3.state0]; simp
  | succ k ih =>
    intro hk
    have h5 := hmin k hk _ (doublingPlan_traj _ (X k))
    have h6 := h5.2 (le_antisymm (doublingPlan_le (h4.plan k hk)) h5.1)
    have h7 := h4.next k hk
    rw [← h6] at h7
    simp only [doublingPlan, List.getElem?_cons_succ, List.getElem?_cons_zero, Option.some.injEq] at h7
    rw [← h7, Matrix.cons_val_zero, ih (by omega), pow_succ]
    ring

end Nmpc.DDP

namespace Nmpc.Problems

open Nmpc.DDP Finset

/-- **C120** The test of the bipedal example (2000 rounds): whatever the reference is and however many iterations are done per round,
the running costs of the applied steps and the cost of the last plan together are at most the cost of the zero inputs and what the
steps appended to the plans add. -/
theorem C120_bipedal {L : LLT ℝ} {as : List ℝ} (p : Bipedal ℝ) (maxIter : ℤ) (o : Obj 2 ℝ) (x0 : Vec 2 ℝ)
    (scr : ℕ → (t : ℝ) → Scratch 2 (fun i => (fun _ : ℝ => 1) (timeAt t (1 / 100) i)) ℝ) {d : ControlData 2 ℝ}
    (hd : IsTrajectory (p.ddp (1 / 100)) 0 (1 / 100) 300 x0 d) (hu : d.us = zeroInputs (fun _ => 1) 0 (1 / 100) 300) :
    ∃ s D X U E, ∃ V : (k : ℕ) → Vec ((fun _ : ℝ => 1) (0 + k * (1 / 100) + (300 : ℕ) * (1 / 100))) ℝ,
      mpcLoop L (p.ddp (1 / 100)) none (1 / 100) (fun _ => defaultConfig as maxIter 300) scr (fun _ => shiftRepeat) 20 o 0 x0
        (zeroInputs (fun _ => 1) 0 (1 / 100) 300) = .ok s ∧ s.k = 2000 ∧ Plans (p.ddp (1 / 100)) (1 / 100) 0 x0 300 s D X U E ∧
      (∀ k < 1999, ∃ w, shiftRepeat (D k).us = .ok w ∧ w[299]? = some ⟨1, V k⟩) ∧
      ∑ k ∈ range 1999, (p.ddp (1 / 100)).runningCost (0 + k * (1 / 100)) (X k) (U k) + s.obj.control.costs.sum ≤
        d.costs.sum + ∑ k ∈ range 1999, tailCost (p.ddp (1 / 100)) (1 / 100) (0 + k * (1 / 100) + (300 : ℕ) * (1 / 100)) (E k) (V k) := by
  have hk : ⌈((20 : ℝ) - 0) / (1 / 100)⌉₊ = 1999 + 1 := by
    rw [show ((20 : ℝ) - 0) / (1 / 100) = (2000 : ℕ) by norm_num]; exact Nat.ceil_natCast _
  exact C120_total (by norm_num) (by norm_num) (shiftRepeat_ok (by norm_num) fun _ _ => rfl)
    (fun _ => ⟨rfl, by norm_num [defaultConfig], by norm_num [defaultConfig], rfl, by simp [defaultConfig]⟩)
    (fun _ => by norm_num [defaultConfig]) zeroInputs_ok.1 zeroInputs_ok.2 hk hd hu

end Nmpc.Problems
