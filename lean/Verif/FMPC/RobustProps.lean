import Verif.FMPC.RegulatorProps

/-!
# FMPC: the receding-horizon loop with a plant that differs from the model (C145)
-/

set_option linter.unusedSectionVars false

namespace Nmpc.FMPC

open DDP (FDeriv LDeriv VDeriv timeAt)
open Matrix Finset

section
variable {n m p : ℕ} {P : Callbacks n (fun _ : ℝ => m) (fun _ => p)} {dt R : ℝ} {N : ℕ}

/-- **C145**, the least cost is a Lipschitz function of the initial state on every ball. -/
theorem C145_value_lipschitz (h : Regulator P dt R) (N : ℕ) {r : ℝ} (hr : 0 ≤ r) : ∃ Λ, 0 ≤ Λ ∧ ∀ x x' : Vec n ℝ, ‖x‖ ≤ r → ‖x'‖ ≤ r →
    |value P dt N x' - value P dt N x| ≤ Λ * ‖x' - x‖ := by
  obtain ⟨ρ, hρ, hroll⟩ := roll_bounded_ball (P := P) (t0 := 0) (dt := dt) h.convex N hr h.nonneg
  obtain ⟨K, hK, hlip⟩ := roll_init (dt := dt) h.convex N
  obtain ⟨Λ, hΛ, hl1, hl2⟩ := h.locLip (N := N) (ρ + R)
  have hdt := h.step
  have hR := h.nonneg
  have one : ∀ x x' : Vec n ℝ, ‖x‖ ≤ r → ‖x'‖ ≤ r → value P dt N x' - (N * dt + 1) * (Λ * K) * ‖x' - x‖ ≤ value P dt N x := by
    intro x x' hx hx'
    refine h.le_value fun y z hf => ?_
    have hz : ∀ i < N, ‖z i‖ ≤ R := fun i hi => h.limited _ _ _ fun j => (hf.ineq i hi j).trans zero_le_one
    have h2 : value P dt N x' ≤ trajCost P 0 dt N (rollOut P 0 dt x' z) z := by
      refine h.value_le (h.feasible x' fun i hi j => ?_)
      have := hf.ineq i hi j
      rwa [h.time.ineqConst, h.inputOnly 0 _ 0] at this
    have h3 := cost_close (P := P) (t0 := 0) (dt := dt) (N := N) (x := rollOut P 0 dt x z) (y := rollOut P 0 dt x' z) (z := z)
      (e := K * ‖x' - x‖) hdt.le hΛ (fun i hi x x' u a b c => (hl1 i hi x x' u a b c).1) hl2
      (fun i hi => (hroll i hi x z hx hz).trans (by linarith)) (fun i hi => (hroll i hi x' z hx' hz).trans (by linarith))
      (fun i hi => (hz i hi).trans (by linarith)) (fun i hi => hlip i hi x x' z)
    rw [← trajCost_congr hf.eq_rollOut] at h3
    have h3 := (abs_le.1 h3).2
    have h4 : (N * dt + 1) * (Λ * K) * ‖x' - x‖ = (N * dt + 1) * (Λ * (K * ‖x' - x‖)) := by ring
    linarith
  refine ⟨(N * dt + 1) * (Λ * K), by positivity, fun x x' hx hx' => abs_le.2 ⟨?_, ?_⟩⟩
  · have := one x' x hx' hx
    rw [norm_sub_rev] at this
    linarith
  · have := one x x' hx hx'
    linarith

/-- **C145** (one round)  `C142_decrease` for a plant that differs from the model by at most `δ ≤ 1`. -/
theorem C145_decrease (h : Regulator P dt R) (hN : 0 < N) {r : ℝ} (hr : 0 ≤ r) : ∃ C, 1 ≤ C ∧
    ∀ (L : GainSolver ℝ) (cfg : Config ℝ) (o o' : Obj n ℝ) (t δ : ℝ) (sc : Scratch n (fun _ => m) (fun _ => p) ℝ) (x : Vec n ℝ)
      (init : VarL n ℝ), ‖x‖ ≤ r → cfg.horizon.toNat = N → (cfg.initComplementary = true ∨ init.Pos) → C * cfg.kktErrorThre ≤ 1 → δ ≤ 1 →
      solve L P dt cfg o t sc x init = (o', .ok .succeeded) →
      0 ≤ cfg.kktErrorThre ∧ ∃ u : Vec m ℝ, o'.var.us[0]? = some ⟨m, u⟩ ∧ (∀ j, P.ineqConst t x u j ≤ cfg.kktErrorThre) ∧
        ∀ x', ‖x' - P.stateEq t x u‖ ≤ δ →
          value P dt N x' + dt * P.runningCost t x u ≤ value P dt N x + C * (cfg.kktErrorThre + δ) := by
  obtain ⟨C, hC, hdec⟩ := C142_decrease h hN hr
  obtain ⟨ρ, hρ, hroll⟩ := roll_bounded_ball (P := P) (t0 := 0) (dt := dt) h.convex 1 hr h.nonneg
  obtain ⟨Λ, hΛ, hval⟩ := C145_value_lipschitz h N (r := ρ + 1) (by linarith)
  refine ⟨C + Λ, by linarith, fun L cfg o o' t δ sc x init hx hcN hp hthre hδ hsol => ?_⟩
  obtain ⟨v, dF, dG, dL, dV, hv, hD, hk⟩ := C29_kkt hsol
  have htol : 0 ≤ cfg.kktErrorThre := (Real.sqrt_nonneg _).trans hk
  have hCt : C * cfg.kktErrorThre ≤ 1 := by nlinarith
  obtain ⟨h0, u, hu, hg, hd⟩ := hdec L cfg o o' t sc x init hx hcN hp hCt hsol
  have htol1 : cfg.kktErrorThre ≤ 1 := (le_mul_of_one_le_left htol hC).trans hCt
  have huR : ‖u‖ ≤ R := h.limited t x u fun j => (hg j).trans htol1
  refine ⟨h0, u, hu, hg, fun x' hx' => ?_⟩
  have hδ0 : 0 ≤ δ := (norm_nonneg _).trans hx'
  have h1 : ‖P.stateEq t x u‖ ≤ ρ := by
    have := hroll 1 le_rfl x (fun _ => u) hx (fun _ _ => huR)
    simp only [rollOut] at this
    rwa [h.time.stateEq] at this ⊢
  have h2 : ‖x'‖ ≤ ρ + 1 := by
    have := norm_le_norm_add_norm_sub' x' (P.stateEq t x u)
    linarith
  have h3 := (abs_le.1 (hval _ x' (h1.trans (by linarith)) h2)).2
  have h4 := mul_le_mul_of_nonneg_left hx' hΛ
  have h5 : 0 ≤ Λ * cfg.kktErrorThre := by positivity
  have h6 : 0 ≤ C * δ := by positivity
  linarith

variable {L : GainSolver ℝ} {cfg : Config ℝ} {scr : ℕ → Scratch n (fun _ => m) (fun _ => p) ℝ} {endT t0 simDt : ℝ}

/-- The states and inputs of the rounds so far, with the decrease of the value. -/
structure Robust (P : Callbacks n (fun _ : ℝ => m) (fun _ => p)) (plant : ℝ → Vec n ℝ → Vec m ℝ → Vec n ℝ) (simDt t0 dt : ℝ) (N : ℕ) (x0 : Vec n ℝ)
    (a b c ε : ℝ) (s : Mpc n m ℝ)
    (X : ℕ → Vec n ℝ) (U : ℕ → Vec m ℝ) : Prop where
  time : s.t = t0 + s.k * simDt
  init : X 0 = x0
  last : X s.k = s.x
  dyn : ∀ k < s.k, X (k + 1) = plant (t0 + k * simDt) (X k) (U k)
  lines : s.log.length = s.k ∧ ∀ k < s.k, ∃ e, s.log[k]? = some e ∧ e.x = X k ∧ e.u = U k
  bound : ∀ k ≤ s.k, value P dt N (X k) ≤ (1 - a / b) ^ k * value P dt N x0 + b / a * ε
  level : ∀ k ≤ s.k, value P dt N (X k) ≤ a * c
  total : ∀ k ≤ s.k, (∑ i ∈ range k, dt * P.runningCost 0 (X i) (U i)) + value P dt N (X k) ≤ value P dt N x0 + k * ε

/-- **C145.**  `C142_loop` for any plant, simulated with any step of the clock: if on the ball the plant differs from the model by at most `δ ≤ 1` for all
inputs that satisfy the constraints up to 1, the conclusions hold with the threshold replaced by the sum of threshold and `δ`. -/
theorem C145_loop (h : Regulator P dt R) (hN : 0 < N) {S : Vec n ℝ → ℝ} {a b c r : ℝ} (ha : 0 < a) (hab : a ≤ b) (hr : 0 ≤ r)
    (hrun : ∀ x u, a * S x ≤ dt * P.runningCost 0 x u) (hterm : ∀ x, P.terminalCost 0 x ≤ b * S x) (hlev : ∀ x, S x ≤ c → ‖x‖ ≤ r) :
    ∃ C, 1 ≤ C ∧ ∀ (L : GainSolver ℝ) (cfg : Config ℝ) (scr : ℕ → Scratch n (fun _ => m) (fun _ => p) ℝ)
      (plant : ℝ → Vec n ℝ → Vec m ℝ → Vec n ℝ) (simDt endT t0 δ : ℝ) (o : Obj n ℝ)
      (x0 : Vec n ℝ) (init : VarL n ℝ) (s : Mpc n m ℝ), cfg.horizon.toNat = N → (cfg.initComplementary = true ∨ init.Pos) →
      (∀ t x u, ‖x‖ ≤ r → (∀ j, P.ineqConst t x u j ≤ 1) → ‖plant t x u - P.stateEq t x u‖ ≤ δ) → 0 ≤ δ → δ ≤ 1 →
      C * cfg.kktErrorThre ≤ 1 → b * (C * (cfg.kktErrorThre + δ)) ≤ a * a * c → b * S x0 ≤ a * c → 0 ≤ cfg.kktErrorThre →
      mpcLoop L P plant dt simDt cfg scr endT o t0 x0 init = .ok s → (∀ e ∈ s.log, e.status = .succeeded) →
      ∃ (X : ℕ → Vec n ℝ) (U : ℕ → Vec m ℝ), X 0 = x0 ∧ X s.k = s.x ∧ s.log.length = s.k ∧
        (∀ k < s.k, X (k + 1) = plant (t0 + k * simDt) (X k) (U k) ∧ ∃ e, s.log[k]? = some e ∧ e.x = X k ∧ e.u = U k) ∧
        ∀ k ≤ s.k, S (X k) ≤ c ∧ a * S (X k) ≤ (1 - a / b) ^ k * (b * S x0) + b / a * (C * (cfg.kktErrorThre + δ)) ∧
          ∑ i ∈ range k, dt * P.runningCost 0 (X i) (U i) ≤ value P dt N x0 + k * (C * (cfg.kktErrorThre + δ)) := by
  obtain ⟨C, hC, hdec⟩ := C145_decrease h hN hr
  refine ⟨C, hC, fun L cfg scr plant simDt endT t0 δ o x0 init s hcN hp hplant hδ0 hδ1 hthre hsmall hx0 htol hloop hst => ?_⟩
  have hb : 0 < b := ha.trans_le hab
  set ε := C * (cfg.kktErrorThre + δ) with hε
  have hε0 : 0 ≤ ε := by positivity
  have hq0 : 0 ≤ 1 - a / b := by rw [sub_nonneg, div_le_one hb]; exact hab
  have hV : ∀ x, value P dt N x ≤ b * S x := fun x => (h.value_le_term x).trans (hterm x)
  have hVl : ∀ x, a * S x ≤ value P dt N x := fun x => h.stage_le_value hN (hrun x)
  have hV0 : ∀ x, 0 ≤ value P dt N x := fun x => h.stage_le_value hN fun u => mul_nonneg h.step.le (h.run_nonneg _ _ _)
  have hS : ∀ x, value P dt N x ≤ a * c → S x ≤ c := fun x hx => le_of_mul_le_mul_left ((hVl x).trans hx) ha
  -- the invariant
  have key : ∀ s : Mpc n m ℝ, (cfg.initComplementary = true ∨ s.var.Pos) ∧ ((∀ e ∈ s.log, e.status = .succeeded) →
      ∃ X U, Robust P plant simDt t0 dt N x0 a b c ε s X U) → ∀ s', mpcStep L P plant dt simDt cfg scr endT s = .inl s' →
      (cfg.initComplementary = true ∨ s'.var.Pos) ∧ ((∀ e ∈ s'.log, e.status = .succeeded) → ∃ X U, Robust P plant simDt t0 dt N x0 a b c ε s' X U) := by
    rintro s ⟨hpos, hinv⟩ s' hstep
    obtain ⟨o', st, u, tr, hsol, hu, rfl⟩ := mpcStep_inl hstep
    refine ⟨.inr (C28_positive hpos hsol).1, fun hlog => ?_⟩
    obtain ⟨X, U, hX⟩ := hinv fun e he => hlog e (List.mem_append_left _ he)
    have hst : st = .succeeded := hlog ⟨s.t, s.x, u, st, tr⟩ (List.mem_append_right _ (List.mem_singleton.2 rfl))
    subst hst
    have hlx : value P dt N s.x ≤ a * c := by rw [← hX.last]; exact hX.level s.k le_rfl
    obtain ⟨-, u', hu', hg, hd⟩ := hdec L cfg s.obj o' s.t δ (scr s.k) s.x s.var (hlev _ (hS _ hlx)) hcN hpos hthre hδ1 hsol
    rw [hu] at hu'
    cases hu'
    have htol1 : cfg.kktErrorThre ≤ 1 := (le_mul_of_one_le_left htol hC).trans hthre
    have hd := hd _ (hplant s.t s.x u (hlev _ (hS _ hlx)) fun j => (hg j).trans htol1)
    rw [h.time.runningCost, ← hε] at hd
    have hstage := hrun s.x u
    have hcontr : value P dt N (plant s.t s.x u) ≤ (1 - a / b) * value P dt N s.x + ε := by
      have h1 := hV s.x
      have h2 : a / b * value P dt N s.x ≤ a * S s.x := by
        rw [div_mul_eq_mul_div, div_le_iff₀ hb]
        have := mul_le_mul_of_nonneg_left h1 ha.le
        linarith
      linarith
    have hbε : a / b * (b / a * ε) = ε := by field_simp
    refine ⟨fun k => if k ≤ s.k then X k else plant s.t s.x u, fun k => if k = s.k then u else U k, ?_, ?_, ?_, ?_, ?_, ?_, ?_, ?_⟩
    · dsimp only
      rw [hX.time]
      push_cast
      ring
    · simpa using hX.init
    · dsimp only
      rw [if_neg (by omega)]
    · intro k hk
      dsimp only at hk ⊢
      rcases Nat.lt_succ_iff_lt_or_eq.1 hk with h' | h'
      · rw [if_pos (by omega), if_pos (by omega), if_neg (by omega)]
        exact hX.dyn k h'
      · subst h'
        rw [if_neg (by omega), if_pos le_rfl, if_pos rfl, hX.last, hX.time]
    · refine ⟨by simp [hX.lines.1], fun k hk => ?_⟩
      dsimp only at hk ⊢
      rcases Nat.lt_succ_iff_lt_or_eq.1 hk with h' | h'
      · rw [List.getElem?_append_left (by rw [hX.lines.1]; exact h'), if_pos (by omega), if_neg (by omega)]
        exact hX.lines.2 k h'
      · subst h'
        rw [List.getElem?_append_right (by rw [hX.lines.1]), hX.lines.1, if_pos le_rfl, if_pos rfl]
        exact ⟨_, by rw [Nat.sub_self]; rfl, hX.last.symm, rfl⟩
    · intro k hk
      dsimp only at hk ⊢
      by_cases h' : k ≤ s.k
      · rw [if_pos h']; exact hX.bound k h'
      · have : k = s.k + 1 := by omega
        subst this
        rw [if_neg h', pow_succ]
        have h1 := hX.bound s.k le_rfl
        rw [hX.last] at h1
        have h2 := mul_le_mul_of_nonneg_left h1 hq0
        linear_combination hcontr + h2 - hbε
    · intro k hk
      dsimp only at hk ⊢
      by_cases h' : k ≤ s.k
      · rw [if_pos h']; exact hX.level k h'
      · rw [if_neg h']
        have h2 := mul_le_mul_of_nonneg_left hlx hq0
        have h3 : ε ≤ a / b * (a * c) := by
          rw [div_mul_eq_mul_div, le_div_iff₀ hb]
          linarith
        linear_combination hcontr + h2 + h3
    · intro k hk
      dsimp only at hk ⊢
      have hsum : ∀ k ≤ s.k, ∑ i ∈ range k, dt * P.runningCost 0 (if i ≤ s.k then X i else plant s.t s.x u) (if i = s.k then u else U i) =
          ∑ i ∈ range k, dt * P.runningCost 0 (X i) (U i) := by
        intro k hk
        refine sum_congr rfl fun i hi => ?_
        have hi := mem_range.1 hi
        rw [if_pos (by omega), if_neg (by omega)]
      by_cases h' : k ≤ s.k
      · rw [if_pos h', hsum k h']; exact hX.total k h'
      · have : k = s.k + 1 := by omega
        subst this
        rw [if_neg h', sum_range_succ, hsum s.k le_rfl, if_pos le_rfl, if_pos rfl]
        have h1 := hX.total s.k le_rfl
        rw [hX.last] at h1 ⊢
        push_cast
        linarith
  have h0 : (cfg.initComplementary = true ∨ (⟨0, t0, x0, init, o, []⟩ : Mpc n m ℝ).var.Pos) ∧
      ((∀ e ∈ (⟨0, t0, x0, init, o, []⟩ : Mpc n m ℝ).log, e.status = .succeeded) →
        ∃ X U, Robust P plant simDt t0 dt N x0 a b c ε (⟨0, t0, x0, init, o, []⟩ : Mpc n m ℝ) X U) := by
    refine ⟨hp, fun _ => ⟨fun _ => x0, fun _ => 0, by simp, rfl, rfl, by simp, by simp, ?_, ?_, ?_⟩⟩
    · intro k hk
      have : k = 0 := by simpa using hk
      subst this
      have : 0 ≤ b / a * ε := by positivity
      simpa using this
    · intro k _
      exact (hV x0).trans hx0
    · intro k hk
      have : k = 0 := by simpa using hk
      subst this
      simp
  have hfin : ∃ X U, Robust P plant simDt t0 dt N x0 a b c ε s X U := by
    have : loopM (mpcStep L P plant dt simDt cfg scr endT) ⟨0, t0, x0, init, o, []⟩ = some (.ok s) := by
      unfold mpcLoop loopR at hloop
      split at hloop
      · rename_i r hr; rw [hr, hloop]
      · cases hloop
    refine loopM_invariant (fun s => (cfg.initComplementary = true ∨ s.var.Pos) ∧ ((∀ e ∈ s.log, e.status = .succeeded) →
      ∃ X U, Robust P plant simDt t0 dt N x0 a b c ε s X U)) (fun r => ∀ s, r = .ok s → (∀ e ∈ s.log, e.status = .succeeded) →
      ∃ X U, Robust P plant simDt t0 dt N x0 a b c ε s X U) (fun s s' hs hstep => key s hs s' hstep) ?_ h0 this s rfl hst
    rintro s _ hs hstep s' rfl hlog
    rw [mpcStep_inr hstep] at hlog ⊢
    exact hs.2 hlog
  obtain ⟨X, U, hX⟩ := hfin
  refine ⟨X, U, hX.init, hX.last, hX.lines.1, fun k hk => ⟨hX.dyn k hk, hX.lines.2 k hk⟩, fun k hk => ⟨hS _ (hX.level k hk), ?_, ?_⟩⟩
  · have h1 := mul_le_mul_of_nonneg_left (hV x0) (pow_nonneg hq0 k)
    have h2 := hX.bound k hk
    have h3 := hVl (X k)
    linarith
  · have h1 := hX.total k hk
    have h2 := hV0 (X k)
    linarith

end
end Nmpc.FMPC
