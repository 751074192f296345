import Verif.FMPC.Regulator

/-!
# FMPC: practical stability of the receding-horizon loop (C142)
-/

set_option linter.unusedSectionVars false

namespace Nmpc.FMPC

open DDP (FDeriv LDeriv VDeriv timeAt)
open Matrix Finset

section
variable {n m p : ℕ} {P : Callbacks n (fun _ : ℝ => m) (fun _ => p)} {dt R : ℝ} {N : ℕ}

/-- **C142** (one round)  For a regulator problem and every ball of initial states there is a constant `C` such that every call of
`solve` from a state of the ball, at any time, that returns `Succeeded` with a threshold of at most `1 / C` yields a first input that
satisfies the constraints up to the threshold and moves the plant to a state whose optimal cost is smaller by the stage cost,
up to `C kkt_error_thre`. -/
theorem C142_decrease (h : Regulator P dt R) (hN : 0 < N) {r : ℝ} (hr : 0 ≤ r) : ∃ C, 1 ≤ C ∧
    ∀ (L : GainSolver ℝ) (cfg : Config ℝ) (o o' : Obj n ℝ) (t : ℝ) (sc : Scratch n (fun _ => m) (fun _ => p) ℝ) (x : Vec n ℝ)
      (init : VarL n ℝ), ‖x‖ ≤ r → cfg.horizon.toNat = N → (cfg.initComplementary = true ∨ init.Pos) → C * cfg.kktErrorThre ≤ 1 →
      solve L P dt cfg o t sc x init = (o', .ok .succeeded) →
      0 ≤ cfg.kktErrorThre ∧ ∃ u : Vec m ℝ, o'.var.us[0]? = some ⟨m, u⟩ ∧ (∀ j, P.ineqConst t x u j ≤ cfg.kktErrorThre) ∧
        value P dt N (P.stateEq t x u) + dt * P.runningCost t x u ≤ value P dt N x + C * cfg.kktErrorThre := by
  obtain ⟨σ, hσ, w, hw⟩ := h.interior
  have hwR : ‖w‖ ≤ R := h.limited 0 0 w fun j => (hw 0 0 j).trans (by linarith)
  obtain ⟨C, hC, hs⟩ := kkt_slater_ball (P := P) (t0 := 0) (dt := dt) (N := N) (w := fun _ => w) h.convex h.step.le h.locLip hσ hr
    (fun x _ i _ j => hw _ _ j) h.nonneg (fun _ _ => hwR)
  obtain ⟨C', hCC, hd⟩ := h.decrease hN hr hC
  refine ⟨C', hC.trans hCC, fun L cfg o o' t sc x init hx hcN hp hthre hsol => ?_⟩
  rw [h.time.solve_eq] at hsol
  obtain ⟨v, dF, dG, dL, dV, hv, hD, hk⟩ := C29_kkt hsol
  have hpos := (C28_positive hp hsol).1
  rw [hv] at hpos
  have hpos' := out_pos_nu hpos
  rw [hcN] at hv hD hk hpos'
  have htol : 0 ≤ cfg.kktErrorThre := (Real.sqrt_nonneg _).trans hk
  have hCt : C * cfg.kktErrorThre ≤ 1 := (mul_le_mul_of_nonneg_right hCC htol).trans hthre
  have htol1 : cfg.kktErrorThre ≤ 1 := (le_mul_of_one_le_left htol hC).trans hCt
  have hg : ∀ i < N, ∀ j, P.ineqConst (timeAt 0 dt i) (v.x i) (v.u i) j ≤ cfg.kktErrorThre :=
    fun i hi j => (hk.each.2.2 i hi).2.2.2.2.2 j (hpos'.1 i hi j).le
  have hu : ∀ i < N, ‖v.u i‖ ≤ R := fun i hi => h.limited _ _ _ fun j => (hg i hi j).trans htol1
  have hno := hs x hx v dF dG dL dV _ hD hk hpos' hCt hu
  refine ⟨htol, v.u 0, ?_, fun j => ?_, ?_⟩
  · rw [hv]
    simp only [Var.out]
    rw [List.getElem?_map, List.getElem?_range hN]
    rfl
  · have := hg 0 hN j
    rwa [h.time.ineqConst, h.inputOnly 0 _ x, ← h.time.ineqConst t] at this
  · rw [h.time.stateEq, h.time.runningCost]
    exact hd x _ v hx htol hu hno

variable {L : GainSolver ℝ} {cfg : Config ℝ} {scr : ℕ → Scratch n (fun _ => m) (fun _ => p) ℝ} {endT t0 simDt : ℝ}

/-- What a round of the loop did. -/
theorem mpcStep_inl {plant : ℝ → Vec n ℝ → Vec m ℝ → Vec n ℝ} {s s' : Mpc n m ℝ}
    (h : mpcStep L P plant dt simDt cfg scr endT s = .inl s') : ∃ o' st u tr, solve L P dt cfg s.obj s.t (scr s.k) s.x s.var = (o', .ok st) ∧
      o'.var.us[0]? = some ⟨m, u⟩ ∧ s' = ⟨s.k + 1, s.t + simDt, plant s.t s.x u, o'.var, o', s.log ++ [⟨s.t, s.x, u, st, tr⟩]⟩ := by
  unfold mpcStep at h
  split at h
  · split at h
    · rename_i o' st hq
      unfold mpcNext at h
      split at h
      · rename_i k u tr hu htr
        split at h
        · rename_i hk
          subst hk
          cases h
          exact ⟨o', st, u, tr, hq, hu, rfl⟩
        · cases h
      · cases h
    all_goals cases h
  · cases h

theorem mpcStep_inr {plant : ℝ → Vec n ℝ → Vec m ℝ → Vec n ℝ} {s s' : Mpc n m ℝ}
    (h : mpcStep L P plant dt simDt cfg scr endT s = .inr (.ok s')) : s' = s := by
  unfold mpcStep at h
  split at h
  · split at h
    · unfold mpcNext at h
      split at h
      · split at h <;> cases h
      · cases h
    all_goals cases h
  · cases h; rfl

/-- The states and inputs of the rounds so far, with the decrease of the value. -/
structure Regulated (P : Callbacks n (fun _ : ℝ => m) (fun _ => p)) (dt : ℝ) (N : ℕ) (x0 : Vec n ℝ) (a b c ε : ℝ) (s : Mpc n m ℝ)
    (X : ℕ → Vec n ℝ) (U : ℕ → Vec m ℝ) : Prop where
  init : X 0 = x0
  last : X s.k = s.x
  dyn : ∀ k < s.k, X (k + 1) = P.stateEq 0 (X k) (U k)
  lines : s.log.length = s.k ∧ ∀ k < s.k, ∃ e, s.log[k]? = some e ∧ e.x = X k ∧ e.u = U k
  bound : ∀ k ≤ s.k, value P dt N (X k) ≤ (1 - a / b) ^ k * value P dt N x0 + b / a * ε
  level : ∀ k ≤ s.k, value P dt N (X k) ≤ a * c
  total : ∀ k ≤ s.k, (∑ i ∈ range k, dt * P.runningCost 0 (X i) (U i)) + value P dt N (X k) ≤ value P dt N x0 + k * ε

/-- **C142.**  A regulator problem whose stage cost is at least `a S(x)` and whose terminal cost is at most `b S(x)`, simulated with its
own dynamics: for every level `c` of `S` inside a ball there is a constant `C` such that, if the loop starts with `b S(x0) ≤ a c`, the
threshold is small, and every round reports `Succeeded`, then the states stay in the level set, `S` decreases geometrically to a
multiple of the threshold, and the total cost exceeds the optimal cost of the first plan by at most `C kkt_error_thre` per round. -/
theorem C142_loop (h : Regulator P dt R) (hN : 0 < N) {S : Vec n ℝ → ℝ} {a b c r : ℝ} (ha : 0 < a) (hab : a ≤ b) (hr : 0 ≤ r)
    (hrun : ∀ x u, a * S x ≤ dt * P.runningCost 0 x u) (hterm : ∀ x, P.terminalCost 0 x ≤ b * S x) (hlev : ∀ x, S x ≤ c → ‖x‖ ≤ r) :
    ∃ C, 1 ≤ C ∧ ∀ (L : GainSolver ℝ) (cfg : Config ℝ) (scr : ℕ → Scratch n (fun _ => m) (fun _ => p) ℝ) (endT t0 : ℝ) (o : Obj n ℝ)
      (x0 : Vec n ℝ) (init : VarL n ℝ) (s : Mpc n m ℝ), cfg.horizon.toNat = N → (cfg.initComplementary = true ∨ init.Pos) →
      C * cfg.kktErrorThre ≤ 1 → b * (C * cfg.kktErrorThre) ≤ a * a * c → b * S x0 ≤ a * c → 0 ≤ cfg.kktErrorThre →
      mpcLoop L P P.stateEq dt dt cfg scr endT o t0 x0 init = .ok s → (∀ e ∈ s.log, e.status = .succeeded) →
      ∃ (X : ℕ → Vec n ℝ) (U : ℕ → Vec m ℝ), X 0 = x0 ∧ X s.k = s.x ∧ s.log.length = s.k ∧
        (∀ k < s.k, X (k + 1) = P.stateEq 0 (X k) (U k) ∧ ∃ e, s.log[k]? = some e ∧ e.x = X k ∧ e.u = U k) ∧
        ∀ k ≤ s.k, S (X k) ≤ c ∧ a * S (X k) ≤ (1 - a / b) ^ k * (b * S x0) + b / a * (C * cfg.kktErrorThre) ∧
          ∑ i ∈ range k, dt * P.runningCost 0 (X i) (U i) ≤ value P dt N x0 + k * (C * cfg.kktErrorThre) := by
  obtain ⟨C, hC, hdec⟩ := C142_decrease h hN hr
  refine ⟨C, hC, fun L cfg scr endT t0 o x0 init s hcN hp hthre hsmall hx0 htol hloop hst => ?_⟩
  have hb : 0 < b := ha.trans_le hab
  set ε := C * cfg.kktErrorThre with hε
  have hε0 : 0 ≤ ε := by positivity
  have hq0 : 0 ≤ 1 - a / b := by rw [sub_nonneg, div_le_one hb]; exact hab
  have hV : ∀ x, value P dt N x ≤ b * S x := fun x => (h.value_le_term x).trans (hterm x)
  have hVl : ∀ x, a * S x ≤ value P dt N x := fun x => h.stage_le_value hN (hrun x)
  have hV0 : ∀ x, 0 ≤ value P dt N x := fun x => h.stage_le_value hN fun u => mul_nonneg h.step.le (h.run_nonneg _ _ _)
  have hS : ∀ x, value P dt N x ≤ a * c → S x ≤ c := fun x hx => le_of_mul_le_mul_left ((hVl x).trans hx) ha
  -- the invariant
  have key : ∀ s : Mpc n m ℝ, (cfg.initComplementary = true ∨ s.var.Pos) ∧ ((∀ e ∈ s.log, e.status = .succeeded) →
      ∃ X U, Regulated P dt N x0 a b c ε s X U) → ∀ s', mpcStep L P P.stateEq dt dt cfg scr endT s = .inl s' →
      (cfg.initComplementary = true ∨ s'.var.Pos) ∧ ((∀ e ∈ s'.log, e.status = .succeeded) → ∃ X U, Regulated P dt N x0 a b c ε s' X U) := by
    rintro s ⟨hpos, hinv⟩ s' hstep
    obtain ⟨o', st, u, tr, hsol, hu, rfl⟩ := mpcStep_inl hstep
    refine ⟨.inr (C28_positive hpos hsol).1, fun hlog => ?_⟩
    obtain ⟨X, U, hX⟩ := hinv fun e he => hlog e (List.mem_append_left _ he)
    have hst : st = .succeeded := hlog ⟨s.t, s.x, u, st, tr⟩ (List.mem_append_right _ (List.mem_singleton.2 rfl))
    subst hst
    have hlx : value P dt N s.x ≤ a * c := by rw [← hX.last]; exact hX.level s.k le_rfl
    obtain ⟨-, u', hu', -, hd⟩ := hdec L cfg s.obj o' s.t (scr s.k) s.x s.var (hlev _ (hS _ hlx)) hcN hpos hthre hsol
    rw [hu] at hu'
    cases hu'
    rw [h.time.runningCost, ← hε] at hd
    have hstage := hrun s.x u
    have hcontr : value P dt N (P.stateEq s.t s.x u) ≤ (1 - a / b) * value P dt N s.x + ε := by
      have h1 := hV s.x
      have h2 : a / b * value P dt N s.x ≤ a * S s.x := by
        rw [div_mul_eq_mul_div, div_le_iff₀ hb]
        have := mul_le_mul_of_nonneg_left h1 ha.le
        linarith
      linarith
    have hbε : a / b * (b / a * ε) = ε := by field_simp
    refine ⟨fun k => if k ≤ s.k then X k else P.stateEq s.t s.x u, fun k => if k = s.k then u else U k, ?_, ?_, ?_, ?_, ?_, ?_, ?_⟩
    · simpa using hX.init
    · dsimp only
      rw [if_neg (by omega)]
    · intro k hk
      dsimp only at hk ⊢
      rcases Nat.lt_succ_iff_lt_or_eq.1 hk with h' | h'
      · rw [if_pos (by omega), if_pos (by omega), if_neg (by omega)]
        exact hX.dyn k h'
      · subst h'
        rw [if_neg (by omega), if_pos le_rfl, if_pos rfl, hX.last, h.time.stateEq]
    · refine ⟨by simp [hX.lines.1], fun k hk => ?_⟩
      dsimp only at hk ⊢
      rcases Nat.lt_succ_iff_lt_or_eq.1 hk with h' | h'
      · rw [List.getElem?_append_left (by rw [hX.lines.1]; exact h'), if_pos (by omega), if_neg (by omega)]
        exact hX.lines.2 k h'
      · subst h'
        rw [List.getElem?_append_right (by rw [hX.lines.1]), hX.lines.1, if_pos le_rfl, if_pos rfl]
        exact ⟨_, by rw [Nat.sub_self]; rfl, hX.last.symm, rfl⟩
    · intro k hk
      dsimp only at hk ⊢
      by_cases h' : k ≤ s.k
      · rw [if_pos h']; exact hX.bound k h'
      · have : k = s.k + 1 := by omega
        subst this
        rw [if_neg h', pow_succ]
        have h1 := hX.bound s.k le_rfl
        rw [hX.last] at h1
        have h2 := mul_le_mul_of_nonneg_left h1 hq0
        linear_combination hcontr + h2 - hbε
    · intro k hk
      dsimp only at hk ⊢
      by_cases h' : k ≤ s.k
      · rw [if_pos h']; exact hX.level k h'
      · rw [if_neg h']
        have h2 := mul_le_mul_of_nonneg_left hlx hq0
        have h3 : ε ≤ a / b * (a * c) := by
          rw [div_mul_eq_mul_div, le_div_iff₀ hb]
          linarith
        linear_combination hcontr + h2 + h3
    · intro k hk
      dsimp only at hk ⊢
      have hsum : ∀ k ≤ s.k, ∑ i ∈ range k, dt * P.runningCost 0 (if i ≤ s.k then X i else P.stateEq s.t s.x u) (if i = s.k then u else U i) =
          ∑ i ∈ range k, dt * P.runningCost 0 (X i) (U i) := by
        intro k hk
        refine sum_congr rfl fun i hi => ?_
        have hi := mem_range.1 hi
        rw [if_pos (by omega), if_neg (by omega)]
      by_cases h' : k ≤ s.k
      · rw [if_pos h', hsum k h']; exact hX.total k h'
      · have : k = s.k + 1 := by omega
        subst this
        rw [if_neg h', sum_range_succ, hsum s.k le_rfl, if_pos le_rfl, if_pos rfl]
        have h1 := hX.total s.k le_rfl
        rw [hX.last] at h1 ⊢
        push_cast
        linarith
  have h0 : (cfg.initComplementary = true ∨ (⟨0, t0, x0, init, o, []⟩ : Mpc n m ℝ).var.Pos) ∧
      ((∀ e ∈ (⟨0, t0, x0, init, o, []⟩ : Mpc n m ℝ).log, e.status = .succeeded) →
        ∃ X U, Regulated P dt N x0 a b c ε (⟨0, t0, x0, init, o, []⟩ : Mpc n m ℝ) X U) := by
    refine ⟨hp, fun _ => ⟨fun _ => x0, fun _ => 0, rfl, rfl, by simp, by simp, ?_, ?_, ?_⟩⟩
    · intro k hk
      have : k = 0 := by simpa using hk
      subst this
      have : 0 ≤ b / a * ε := by positivity
      simpa using this
    · intro k _
      exact (hV x0).trans hx0
    · intro k hk
      have : k = 0 := by simpa using hk
      subst this
      simp
  have hfin : ∃ X U, Regulated P dt N x0 a b c ε s X U := by
    have : loopM (mpcStep L P P.stateEq dt dt cfg scr endT) ⟨0, t0, x0, init, o, []⟩ = some (.ok s) := by
      unfold mpcLoop loopR at hloop
      split at hloop
      · rename_i r hr; rw [hr, hloop]
      · cases hloop
    refine loopM_invariant (fun s => (cfg.initComplementary = true ∨ s.var.Pos) ∧ ((∀ e ∈ s.log, e.status = .succeeded) →
      ∃ X U, Regulated P dt N x0 a b c ε s X U)) (fun r => ∀ s, r = .ok s → (∀ e ∈ s.log, e.status = .succeeded) →
      ∃ X U, Regulated P dt N x0 a b c ε s X U) (fun s s' hs hstep => key s hs s' hstep) ?_ h0 this s rfl hst
    rintro s _ hs hstep s' rfl hlog
    rw [mpcStep_inr hstep] at hlog ⊢
    exact hs.2 hlog
  obtain ⟨X, U, hX⟩ := hfin
  refine ⟨X, U, hX.init, hX.last, hX.lines.1, fun k hk => ⟨hX.dyn k hk, hX.lines.2 k hk⟩, fun k hk => ⟨hS _ (hX.level k hk), ?_, ?_⟩⟩
  · have h1 := mul_le_mul_of_nonneg_left (hV x0) (pow_nonneg hq0 k)
    have h2 := hX.bound k hk
    have h3 := hVl (X k)
    linarith
  · have h1 := hX.total k hk
    have h2 := hV0 (X k)
    linarith

end
end Nmpc.FMPC
