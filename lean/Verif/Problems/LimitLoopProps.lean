import Verif.Problems.LimitLoop

/-!
# DDP with input limits: practical stability of the receding-horizon loop (C143)
-/

set_option linter.unusedSectionVars false

namespace Nmpc.Agree

open Matrix Finset
open DDP (timeAt LQProblem IsTrajectory VDeriv)

variable {n m : ℕ} {z : ConstLQ n m} {lo hi : Vec m ℝ} {μ dt lamT : ℝ} {N : ℕ}

/-- A plan and the quantities of a backward pass at it. -/
structure PassData (n m : ℕ) where
  x : ℕ → Vec n ℝ
  u : ℕ → Vec m ℝ
  lambda : ℝ
  V : ℕ → VDeriv n ℝ
  k : ℕ → Vec m ℝ
  K : ℕ → Mat m n ℝ

/-- `w` is a backward pass of the solver, with nonnegative regularisation, at the plan `D`. -/
structure LastPass (L : LLT ℝ) (cfg : DDP.Config ℝ) (z : ConstLQ n m) (lo hi : Vec m ℝ) (t dt : ℝ) (N : ℕ) (D : DDP.ControlData n ℝ)
    (w : PassData n m) : Prop where
  xs : ∀ j ≤ N, D.xs[j]? = some (w.x j)
  us : ∀ j < N, D.us[j]? = some ⟨m, w.u j⟩
  reg : 0 ≤ w.lambda
  pass : PassAt L cfg z.problem (constLim lo hi) t dt N w.x w.u w.lambda w.V w.k w.K

/-- The quadratic programs of the pass ended with code 5 or 6. -/
def PassCertified (L : LLT ℝ) (cfg : DDP.Config ℝ) (z : ConstLQ n m) (lo hi : Vec m ℝ) (t dt : ℝ) (N : ℕ) (w : PassData n m) : Prop :=
  CertifiedAt L cfg z.problem (constLim lo hi) t dt N w.x w.u w.lambda w.V w.k w.K

/-- **C143** (one round)  For a time-invariant linear-quadratic problem with input limits and every ball of initial states there is a
constant `C` such that every call of `solve` that returns `true` on small feedforward terms, from any initial inputs and at any time,
yields a first input that satisfies the limits up to `C k_rel_norm_thre`; and if the state is in the ball and the quadratic programs of
the last backward pass ended with code 5 or 6, the next state has a least cost that is smaller by the running cost, up to
`C (k_rel_norm_thre + 1e-8)`. -/
theorem C143_decrease (h : LimitRegulator z lo hi μ) (hdt : 0 < dt) (hlam : 0 ≤ lamT) (hN : 0 < N) {r : ℝ} (hr : 0 ≤ r) : ∃ C, 1 ≤ C ∧
    ∀ (L : LLT ℝ) (cfg : DDP.Config ℝ) (o o' : DDP.Obj n ℝ) (t : ℝ) (sc : DDP.Scratch n (fun _ => m) ℝ) (x : Vec n ℝ)
      (us : List (Σ k : ℕ, Vec k ℝ)) (e : DDP.Trace ℝ), L.Exact → LimitSettings cfg lamT → cfg.horizon = N → us.length = N →
      DDP.DimsOk (fun _ => m) t dt us → DDP.solve L z.problem.callbacks (some (constLim lo hi)) dt cfg o t sc x us = (o', .ok true) →
      o'.trace.getLast? = some e → e.alpha = 0 →
      ∃ (w : PassData n m) (u : Vec m ℝ), LastPass L cfg z lo hi t dt N o'.control w ∧ o'.control.us[0]? = some ⟨m, u⟩ ∧
        (∀ i, lo i - C * cfg.kRelNormThre ≤ u i ∧ u i ≤ hi i + C * cfg.kRelNormThre) ∧
        (‖x‖ ≤ r → PassCertified L cfg z lo hi t dt N w →
          leastCost z lo hi dt N (z.next x u) + z.run x u ≤ leastCost z lo hi dt N x + C * (cfg.kRelNormThre + 1 / 10 ^ 8)) := by
  obtain ⟨σ, hσ, hroom⟩ := h.room
  have hlu : ∀ t i, ((constLim lo hi) t).1 i ≤ ((constLim lo hi) t).2 i := fun t i => by
    show lo i ≤ hi i
    linarith [hroom i]
  have hreg := h.regulator hdt
  obtain ⟨C1, hC1, hnear⟩ := ddp_near_ball (lim := constLim lo hi) (lamT := lamT) h.strong hdt hlam hlu 0 N hr
  obtain ⟨C2, hC2, hdec⟩ := hreg.decrease_near (N := N) hN (R1 := ‖lo‖ + ‖hi‖ + 1 + C1) hr (by linarith)
  have hCC : 1 ≤ C1 + C2 * C1 := by nlinarith
  refine ⟨C1 + C2 * C1, hCC, fun L cfg o o' t sc x us e hL hc hcN hlen hd hsol hlast he => ?_⟩
  have hk0 := hc.k0
  rw [solve_const] at hsol
  have hN' : (us.length : ℤ) = cfg.horizon := by rw [hlen, hcN]
  obtain ⟨y, u, la, V, k, K, g1, g2, g3, g4, g5, g6, g7⟩ := hnear x L cfg o sc us e hL hc hlen hN' hd (by rw [hsol]) (by rw [hsol]; exact hlast) he
  rw [hsol] at g1 g2
  dsimp only at g1 g2
  have hb : C1 * cfg.kRelNormThre ≤ (C1 + C2 * C1) * cfg.kRelNormThre := by
    refine mul_le_mul_of_nonneg_right ?_ hk0
    have : 0 ≤ C2 * C1 := by positivity
    linarith
  refine ⟨⟨y, u, la, V, k, K⟩, u 0, ⟨g1, g2, g3, g4⟩, g2 0 hN, fun i => ?_, fun hx hcert => ?_⟩
  · have a1 := g5 0 hN i
    have a2 := norm_le_pi_norm (k 0) i
    rw [Real.norm_eq_abs] at a2
    have a3 := abs_le.1 (a2.trans (g6 0 hN))
    have a4 : lo i ≤ u 0 i + k 0 i := a1.1
    have a5 : u 0 i + k 0 i ≤ hi i := a1.2
    constructor <;> linarith [a3.1, a3.2]
  · rw [leastCost_eq hdt, leastCost_eq hdt]
    have hf : FMPC.FeasibleTraj (fmpcBox z.problem (constLim lo hi) dt) 0 dt x N
        (FMPC.rollOut (fmpcBox z.problem (constLim lo hi) dt) 0 dt x fun j => u j + k j) (fun j => u j + k j) :=
      const_feasible.2 ⟨rfl, fun i hi => rfl, fun i hi j => g5 i hi j⟩
    have hcost : FMPC.trajCost (fmpcBox z.problem (constLim lo hi) dt) 0 dt N
        (FMPC.rollOut (fmpcBox z.problem (constLim lo hi) dt) 0 dt x fun j => u j + k j) (fun j => u j + k j) - C1 * (cfg.kRelNormThre + 1 / 10 ^ 8) ≤
        FMPC.value (fmpcBox z.problem (constLim lo hi) dt) dt N x := by
      refine hreg.le_value fun y' z' hf' => ?_
      have a1 := g7 hx hcert z' (const_feasible.1 hf').2.2
      rw [← FMPC.trajCost_congr hf'.eq_rollOut] at a1
      linarith
    have hz0 : ‖u 0 + k 0‖ ≤ ‖lo‖ + ‖hi‖ + 0 := limit_norm le_rfl fun i => by
      have := g5 0 hN i
      rw [sub_zero, add_zero]
      exact this
    have hk := g6 0 hN
    have hkC : C1 * cfg.kRelNormThre ≤ C1 := mul_le_of_le_one_right (by linarith) (by linarith [hc.k1])
    have hu0 : ‖u 0‖ ≤ ‖lo‖ + ‖hi‖ + 1 + C1 := by
      have a1 := norm_sub_le (u 0 + k 0) (k 0)
      rw [add_sub_cancel_right] at a1
      linarith
    have := hdec x (u 0) _ _ (C1 * (cfg.kRelNormThre + 1 / 10 ^ 8)) (C1 * cfg.kRelNormThre) hx hu0 hf (by linarith)
      (by rw [add_sub_cancel_left]; exact hk)
    have hrun : dt * (fmpcBox z.problem (constLim lo hi) dt).runningCost 0 x (u 0) = z.run x (u 0) := mul_div_cancel₀ _ hdt.ne'
    rw [hrun] at this
    have h8 : 0 ≤ C2 * C1 * (1 / 10 ^ 8) := by positivity
    show FMPC.value (fmpcBox z.problem (constLim lo hi) dt) dt N ((fmpcBox z.problem (constLim lo hi) dt).stateEq 0 x (u 0)) + _ ≤ _
    linarith

/-- The rounds of a loop that started from `x0`: every call returned `true` on small feedforward terms. -/
def SmallExits (L : LLT ℝ) (z : ConstLQ n m) (lo hi : Vec m ℝ) (dt : ℝ) (cfgs : ℕ → DDP.Config ℝ)
    (scr : ℕ → (t : ℝ) → DDP.Scratch n (fun _ => m) ℝ) (t0 : ℝ) (K : ℕ) (O : ℕ → DDP.Obj n ℝ) (X : ℕ → Vec n ℝ)
    (W : ℕ → List (Σ k : ℕ, Vec k ℝ)) : Prop :=
  ∀ k < K, DDP.solve L z.problem.callbacks (some (constLim lo hi)) dt (cfgs k) (O k) (t0 + k * dt) (scr k (t0 + k * dt)) (X k) (W k) =
      (O (k + 1), .ok true) ∧ ∃ e, (O (k + 1)).trace.getLast? = some e ∧ e.alpha = 0

/-- What the closed loop guarantees up to round `K`. -/
structure LoopBound (z : ConstLQ n m) (lo hi : Vec m ℝ) (dt : ℝ) (N : ℕ) (S : Vec n ℝ → ℝ) (a b ε : ℝ) (x0 : Vec n ℝ) (K : ℕ)
    (X : ℕ → Vec n ℝ) (U : ℕ → Vec m ℝ) : Prop where
  decay : ∀ k ≤ K, a * S (X k) ≤ (1 - a / b) ^ k * (b * S x0) + b / a * ε
  total : ∀ k ≤ K, ∑ i ∈ range k, z.run (X i) (U i) ≤ leastCost z lo hi dt N x0 + k * ε

/-- Decay of a sequence of values, with the value in the bound of the states. -/
theorem loop_bound (h : LimitRegulator z lo hi μ) (hdt : 0 < dt) (hN : 0 < N) {S : Vec n ℝ → ℝ} {a b ε : ℝ} (ha : 0 < a) (hab : a ≤ b) (hε : 0 ≤ ε)
    (hrun : ∀ x u, a * S x ≤ z.run x u) (hterm : ∀ x, z.term x ≤ b * S x) {X : ℕ → Vec n ℝ} {U : ℕ → Vec m ℝ} {K : ℕ}
    (hd : ∀ k < K, leastCost z lo hi dt N (X (k + 1)) + z.run (X k) (U k) ≤ leastCost z lo hi dt N (X k) + ε) :
    LoopBound z lo hi dt N S a b ε (X 0) K X U := by
  have hreg := h.regulator hdt
  have hb : 0 < b := ha.trans_le hab
  have hq0 : 0 ≤ 1 - a / b := by rw [sub_nonneg, div_le_one hb]; exact hab
  have hV : ∀ x, leastCost z lo hi dt N x ≤ b * S x := fun x => by
    rw [leastCost_eq hdt]
    exact (hreg.value_le_term x).trans (hterm x)
  have hcancel : ∀ x u, dt * (fmpcBox z.problem (constLim lo hi) dt).runningCost 0 x u = z.run x u := fun x u => mul_div_cancel₀ _ hdt.ne'
  have hVl : ∀ x, a * S x ≤ leastCost z lo hi dt N x := fun x => by
    rw [leastCost_eq hdt]
    exact hreg.stage_le_value hN fun u => by rw [hcancel]; exact hrun x u
  have hV0 : ∀ x, 0 ≤ leastCost z lo hi dt N x := fun x => by
    rw [leastCost_eq hdt]
    exact hreg.stage_le_value hN fun u => by rw [hcancel]; exact h.run_nonneg x u
  have hbε : a / b * (b / a * ε) = ε := by field_simp
  have hdec : ∀ k ≤ K, leastCost z lo hi dt N (X k) ≤ (1 - a / b) ^ k * (b * S (X 0)) + b / a * ε := by
    intro k
    induction k with
    | zero =>
      intro _
      have := hV (X 0)
      have : 0 ≤ b / a * ε := by positivity
      rw [pow_zero, one_mul]
      linarith
    | succ k ih =>
      intro hk
      have h1 := mul_le_mul_of_nonneg_left (ih (by omega)) hq0
      have h2 := hd k hk
      have h3 := hrun (X k) (U k)
      have h4 : a / b * leastCost z lo hi dt N (X k) ≤ a * S (X k) := by
        rw [div_mul_eq_mul_div, div_le_iff₀ hb]
        have := mul_le_mul_of_nonneg_left (hV (X k)) ha.le
        linarith
      rw [pow_succ]
      linear_combination h1 + h2 + h3 + h4 - hbε
  have htot : ∀ k ≤ K, ∑ i ∈ range k, z.run (X i) (U i) + leastCost z lo hi dt N (X k) ≤ leastCost z lo hi dt N (X 0) + k * ε := by
    intro k
    induction k with
    | zero => intro _; simp
    | succ k ih =>
      intro hk
      have h1 := ih (by omega)
      have h2 := hd k hk
      rw [sum_range_succ]
      push_cast
      linarith
  exact ⟨fun k hk => (hVl _).trans (hdec k hk), fun k hk => by linarith [htot k hk, hV0 (X k)]⟩

/-- **C143.**  The receding-horizon loop of DDP on a time-invariant linear-quadratic problem with input limits whose running cost is at
least `a S(x)` and whose terminal cost is at most `b S(x)`: for every ball there is a constant `C` such that the loop runs to its end and,
if every call returned `true` on small feedforward terms, the quadratic programs of the last backward passes ended with code 5 or 6, and the
states were in the ball -- which is the case if the level set `S ≤ c` is in the ball, `b S(x0) ≤ a c` and `b C (κ + 1e-8) ≤ a² c` --
then `S` decreases geometrically to a multiple of `κ + 1e-8`, where `κ` bounds `k_rel_norm_thre`, and the total cost exceeds the least cost
of a first plan by at most `C (κ + 1e-8)` per round. -/
theorem C143_loop (h : LimitRegulator z lo hi μ) (hdt : 0 < dt) (hlam : 0 ≤ lamT) (hN : 1 ≤ N) {S : Vec n ℝ → ℝ} {a b r : ℝ} (ha : 0 < a)
    (hab : a ≤ b) (hr : 0 ≤ r) (hrun : ∀ x u, a * S x ≤ z.run x u) (hterm : ∀ x, z.term x ≤ b * S x) :
    ∃ C, 1 ≤ C ∧ ∀ (L : LLT ℝ) (cfgs : ℕ → DDP.Config ℝ) (scr : ℕ → (t : ℝ) → DDP.Scratch n (fun _ => m) ℝ)
      (shift : ℝ → List (Σ k : ℕ, Vec k ℝ) → Res (List (Σ k : ℕ, Vec k ℝ))) (endT t0 : ℝ) (o : DDP.Obj n ℝ) (x0 : Vec n ℝ)
      (us : List (Σ k : ℕ, Vec k ℝ)) (κ : ℝ), L.Exact →
      (∀ k, LimitSettings (cfgs k) lamT ∧ (cfgs k).horizon = N ∧ (cfgs k).kRelNormThre ≤ κ) → DDP.ShiftOk (fun _ => m) dt N shift →
      us.length = N → DDP.DimsOk (fun _ => m) t0 dt us →
      ∃ (s : DDP.Mpc n ℝ) (O : ℕ → DDP.Obj n ℝ) (X : ℕ → Vec n ℝ) (W : ℕ → List (Σ k : ℕ, Vec k ℝ)) (U : ℕ → Vec m ℝ),
        DDP.mpcLoop L z.problem.callbacks (some (constLim lo hi)) dt cfgs scr shift endT o t0 x0 us = .ok s ∧ s.k = ⌈(endT - t0) / dt⌉₊ ∧
        DDP.Rounds L z.problem.callbacks (some (constLim lo hi)) dt cfgs scr shift o t0 x0 us s O X W ∧
        (∀ k < s.k, X (k + 1) = z.next (X k) (U k) ∧ s.log[k]? = some { t := t0 + k * dt, x := X k, u := ⟨m, U k⟩ }) ∧
        (SmallExits L z lo hi dt cfgs scr t0 s.k O X W →
          (∀ k < s.k, ∀ i, lo i - C * κ ≤ U k i ∧ U k i ≤ hi i + C * κ) ∧
          ∃ w : ℕ → PassData n m, (∀ k < s.k, LastPass L (cfgs k) z lo hi (t0 + k * dt) dt N (O (k + 1)).control (w k)) ∧
            ((∀ k < s.k, PassCertified L (cfgs k) z lo hi (t0 + k * dt) dt N (w k)) →
              ((∀ k < s.k, ‖X k‖ ≤ r) → LoopBound z lo hi dt N S a b (C * (κ + 1 / 10 ^ 8)) x0 s.k X U) ∧
              ∀ c, (∀ x, S x ≤ c → ‖x‖ ≤ r) → b * (C * (κ + 1 / 10 ^ 8)) ≤ a * a * c → b * S x0 ≤ a * c →
                (∀ k ≤ s.k, S (X k) ≤ c) ∧ LoopBound z lo hi dt N S a b (C * (κ + 1 / 10 ^ 8)) x0 s.k X U)) := by
  obtain ⟨C, hC, hdec⟩ := C143_decrease (lamT := lamT) h hdt hlam hN hr
  refine ⟨C, hC, fun L cfgs scr shift endT t0 o x0 us κ hL hc hs hlen hd => ?_⟩
  have hro : ∀ k, DDP.RoundOk (some (constLim lo hi)) N (cfgs k) := fun k =>
    ⟨(hc k).2.1, (hc k).1.factor, (hc k).1.lmin, (hc k).1.first, fun _ => rfl⟩
  obtain ⟨s, O, X, W, h1, h2, h3⟩ := DDP.mpcLoop_rounds (L := L) (P := z.problem.callbacks) (scr := scr) (endT := endT) (o := o) (x0 := x0)
    hdt hN hs hro hlen hd
  obtain ⟨U, E, h4⟩ := h3.plans hN hs hro hlen hd
  have hκ0 : 0 ≤ κ := (hc 0).1.k0.trans (hc 0).2.2
  refine ⟨s, O, X, W, U, h1, h2, h3, fun k hk => ⟨h4.dyn k hk, h4.log k hk⟩, fun hex => ?_⟩
  have key : ∀ k, ∃ w : PassData n m, k < s.k → LastPass L (cfgs k) z lo hi (t0 + k * dt) dt N (O (k + 1)).control w ∧
      (∀ i, lo i - C * κ ≤ U k i ∧ U k i ≤ hi i + C * κ) ∧
      (‖X k‖ ≤ r → PassCertified L (cfgs k) z lo hi (t0 + k * dt) dt N w →
        leastCost z lo hi dt N (X (k + 1)) + z.run (X k) (U k) ≤ leastCost z lo hi dt N (X k) + C * (κ + 1 / 10 ^ 8)) := by
    intro k
    by_cases hk : k < s.k
    · obtain ⟨g1, e, g2, g3⟩ := hex k hk
      obtain ⟨f1, f2, -⟩ := h3.warm_ok hs hro hlen hd hk.le
      obtain ⟨w, u, b1, b2, b3, b4⟩ := hdec L (cfgs k) (O k) (O (k + 1)) _ (scr k (t0 + k * dt)) (X k) (W k) e hL (hc k).1 (hc k).2.1 f1 f2 g1 g2 g3
      have hu := h4.input k hk
      rw [b2] at hu
      obtain rfl : u = U k := by simpa using hu
      have c1 := mul_le_mul_of_nonneg_left (hc k).2.2 (show 0 ≤ C by linarith)
      refine ⟨w, fun _ => ⟨b1, fun i => ⟨by linarith [(b3 i).1], by linarith [(b3 i).2]⟩, fun hx hw => ?_⟩⟩
      have := b4 hx hw
      rw [h4.dyn k hk]
      show leastCost z lo hi dt N (z.next (X k) (U k)) + _ ≤ _
      linarith
    · exact ⟨⟨fun _ => 0, fun _ => 0, 0, fun _ => ⟨0, 0⟩, fun _ => 0, fun _ => 0⟩, fun h => absurd h hk⟩
  choose w hw using key
  refine ⟨fun k hk => (hw k hk).2.1, w, fun k hk => (hw k hk).1, fun hcert => ?_⟩
  have hε : 0 ≤ C * (κ + 1 / 10 ^ 8) := by positivity
  have hball : (∀ k < s.k, ‖X k‖ ≤ r) → LoopBound z lo hi dt N S a b (C * (κ + 1 / 10 ^ 8)) x0 s.k X U := by
    intro hX
    have := loop_bound (K := s.k) (X := X) (U := U) h hdt hN ha hab hε hrun hterm fun k hk => (hw k hk).2.2 (hX k hk) (hcert k hk)
    rwa [h3.state0] at this
  refine ⟨hball, fun c hlev hsmall hx0 => ?_⟩
  have hb : 0 < b := ha.trans_le hab
  have hreg := h.regulator hdt
  have hV : ∀ x, leastCost z lo hi dt N x ≤ b * S x := fun x => by
    rw [leastCost_eq hdt]
    exact (hreg.value_le_term x).trans (hterm x)
  have hVl : ∀ x, a * S x ≤ leastCost z lo hi dt N x := fun x => by
    rw [leastCost_eq hdt]
    refine hreg.stage_le_value hN fun u => ?_
    have : dt * (fmpcBox z.problem (constLim lo hi) dt).runningCost 0 x u = z.run x u := mul_div_cancel₀ _ hdt.ne'
    rw [this]
    exact hrun x u
  have hS : ∀ x, leastCost z lo hi dt N x ≤ a * c → S x ≤ c := fun x hx => le_of_mul_le_mul_left ((hVl x).trans hx) ha
  have hq0 : 0 ≤ 1 - a / b := by rw [sub_nonneg, div_le_one hb]; exact hab
  have hl : ∀ k ≤ s.k, leastCost z lo hi dt N (X k) ≤ a * c := by
    intro k
    induction k with
    | zero => intro _; rw [h3.state0]; exact (hV x0).trans hx0
    | succ k ih =>
      intro hk
      have h5 := ih (by omega)
      have h6 := (hw k hk).2.2 (hlev _ (hS _ h5)) (hcert k hk)
      have h7 := hrun (X k) (U k)
      have h8 : a / b * leastCost z lo hi dt N (X k) ≤ a * S (X k) := by
        rw [div_mul_eq_mul_div, div_le_iff₀ hb]
        have := mul_le_mul_of_nonneg_left (hV (X k)) ha.le
        linarith
      have h9 := mul_le_mul_of_nonneg_left h5 hq0
      have h10 : C * (κ + 1 / 10 ^ 8) ≤ a / b * (a * c) := by
        rw [div_mul_eq_mul_div, le_div_iff₀ hb]
        linarith
      linear_combination h6 + h7 + h8 + h9 + h10
  exact ⟨fun k hk => hS _ (hl k hk), hball fun k hk => hlev _ (hS _ (hl k hk.le))⟩

end Nmpc.Agree
