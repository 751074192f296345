import Verif.DDP.Mpc
import Verif.DDP.Global
import Verif.DDP.ComplexityProps
import Verif.DDP.LQProps

/-!
# Lemmas for C120: the rounds of the receding-horizon loop, shifted plans, plans along a terminal controller
-/

set_option linter.unusedSectionVars false

namespace Nmpc.DDP

open Finset

variable {n : ℕ} {md : ℝ → ℕ} {L : LLT ℝ} {P : Callbacks n md} {lim : Option ((t : ℝ) → Vec (md t) ℝ × Vec (md t) ℝ)}
  {dt : ℝ} {cfgs : ℕ → Config ℝ} {scr : ℕ → (t : ℝ) → Scratch n (fun i => md (timeAt t dt i)) ℝ}
  {shift : ℝ → List (Σ k : ℕ, Vec k ℝ) → Res (List (Σ k : ℕ, Vec k ℝ))} {endT t0 : ℝ} {o : Obj n ℝ} {x0 : Vec n ℝ}
  {us : List (Σ k : ℕ, Vec k ℝ)} {N : ℕ}

/-- What appending one more step with input `v` to a plan that ends in `x` at time `t` adds to its total cost. -/
def tailCost (P : Callbacks n md) (dt t : ℝ) (x : Vec n ℝ) (v : Vec (md t) ℝ) : ℝ :=
  P.runningCost t x v + P.terminalCost (t + dt) (P.stateEq t x v) - P.terminalCost t x

theorem dims_of_trajectory {d : ControlData n ℝ} (h : IsTrajectory P t0 dt N x0 d) : DimsOk md t0 dt d.us := by
  intro i hi
  obtain ⟨_, u, _, hu, _⟩ := h.step i (by rw [← h.lenU]; exact hi)
  rw [List.getElem?_eq_getElem hi] at hu
  rw [Option.some.inj hu]

/-- Dropping the first step of a plan and appending a step with the input `v` gives a plan for the next time and state. -/
theorem IsTrajectory.shifted {d : ControlData n ℝ} (h : IsTrajectory P t0 dt N x0 d) (hN : 1 ≤ N) {x1 xN : Vec n ℝ}
    (h1 : d.xs[1]? = some x1) (hx : d.xs[N]? = some xN) {u0 : Vec (md t0) ℝ} (hu : d.us[0]? = some ⟨md t0, u0⟩)
    (v : Vec (md (t0 + N * dt)) ℝ) :
    ∃ d', IsTrajectory P (t0 + dt) dt N x1 d' ∧ d'.us = d.us.tail ++ [⟨md (t0 + N * dt), v⟩] ∧
      d'.costs.sum = d.costs.sum - P.runningCost t0 x0 u0 + tailCost P dt (t0 + N * dt) xN v := by
  obtain ⟨M, rfl⟩ : ∃ M, N = M + 1 := ⟨N - 1, by omega⟩
  have htime : ∀ i : ℕ, t0 + lit ((i + 1 : ℕ) : ℚ) * dt = t0 + dt + lit (i : ℚ) * dt := fun i => by
    simp only [lit_real]; push_cast; ring
  have htN : t0 + ((M + 1 : ℕ) : ℝ) * dt = t0 + dt + lit (M : ℚ) * dt := by
    simp only [lit_real]; push_cast; ring
  have hlX := h.lenX
  have hlU := h.lenU
  have hlC := h.lenC
  obtain ⟨xs, usd, cs⟩ := d
  dsimp only at *
  match xs, hlX with
  | x :: xs, hlX =>
  match usd, hlU with
  | u :: usd, hlU =>
  match cs, hlC with
  | c :: cs, hlC =>
  simp only [List.length_cons, Nat.add_right_cancel_iff] at hlX hlU hlC
  have hcs : cs ≠ [] := by rintro rfl; simp at hlC
  refine ⟨{ xs := xs ++ [P.stateEq (t0 + (M + 1 : ℕ) * dt) xN v], us := usd ++ [⟨_, v⟩],
            costs := cs.dropLast ++ [P.runningCost (t0 + (M + 1 : ℕ) * dt) xN v,
              P.terminalCost (t0 + (M + 1 : ℕ) * dt + dt) (P.stateEq (t0 + (M + 1 : ℕ) * dt) xN v)] },
    ⟨by simp [hlX], by simp [hlU], by simp [hlC], ?_, ?_, ?_⟩, rfl, ?_⟩
  · dsimp only
    rw [List.getElem?_append_left (by omega)]
    simpa using h1
  · intro i hi
    dsimp only
    by_cases hi' : i < M
    · obtain ⟨x', u', h2, h3, h4, h5⟩ := h.step (i + 1) (by omega)
      simp only [List.getElem?_cons_succ] at h2 h3 h4 h5
      rw [List.getElem?_append_left (by omega), List.getElem?_append_left (by omega), List.getElem?_append_left (by omega),
        List.getElem?_append_left (by simp [hlC]; omega)]
      rw [List.getElem?_dropLast, if_pos (by omega)]
      exact htime i ▸ ⟨x', u', h2, h3, h4, h5⟩
    · obtain rfl : i = M := by omega
      rw [← htN]
      refine ⟨xN, v, ?_, ?_, ?_, ?_⟩
      · rw [List.getElem?_append_left (by omega)]
        simpa using hx
      · rw [List.getElem?_append_right (by omega), hlU]; simp
      · rw [List.getElem?_append_right (by omega), hlX]; simp
      · rw [List.getElem?_append_right (by simp [hlC])]; simp [hlC]
  · refine ⟨P.stateEq (t0 + (M + 1 : ℕ) * dt) xN v, ?_, ?_⟩
    · dsimp only
      rw [List.getElem?_append_right (by omega), hlX]; simp
    · dsimp only
      rw [List.getElem?_append_right (by simp [hlC])]
      have : t0 + ((M + 1 : ℕ) : ℝ) * dt + dt = t0 + dt + lit ((M + 1 : ℕ) : ℚ) * dt := by
        simp only [lit_real]; push_cast; ring
      rw [← this]
      simp [hlC]
  · have hc : c = P.runningCost t0 x0 u0 := by
      have ht0 : t0 + lit ((0 : ℕ) : ℚ) * dt = t0 := by simp
      have hst := h.step 0 (by omega)
      rw [ht0] at hst
      obtain ⟨x', u', h2, h3, _, h5⟩ := hst
      have hs := h.start
      simp only [List.getElem?_cons_zero, Option.some.injEq] at h2 h3 h5 hs hu
      rw [hu] at h3
      obtain rfl : x' = x0 := h2.symm.trans hs
      simp only [Sigma.mk.injEq, heq_eq_eq, true_and] at h3
      rw [h5, ← h3]
    have hlast : cs.getLast hcs = P.terminalCost (t0 + (M + 1 : ℕ) * dt) xN := by
      obtain ⟨x', h2, h3⟩ := h.term
      rw [hx] at h2
      obtain rfl := Option.some.inj h2
      simp only [List.getElem?_cons_succ] at h3
      rw [List.getLast_eq_getElem]
      have : cs[M]? = some (cs[cs.length - 1]'(by omega)) := by
        rw [List.getElem?_eq_getElem (by omega)]; congr 1; congr 1; omega
      rw [this] at h3
      have ht : t0 + lit ((M + 1 : ℕ) : ℚ) * dt = t0 + ((M + 1 : ℕ) : ℝ) * dt := by simp
      rw [Option.some.inj h3, ht]
    have hsum : cs.sum = cs.dropLast.sum + cs.getLast hcs := by
      conv_lhs => rw [← List.dropLast_append_getLast hcs]
      simp
    dsimp only [tailCost]
    simp only [List.sum_append, List.sum_cons, List.sum_nil, hsum, hlast, hc]
    ring

/-- The rounds of a loop that has done `K` of them: the object, the state and the warm start before each. -/
structure Rounds (L : LLT ℝ) (P : Callbacks n md) (lim : Option ((t : ℝ) → Vec (md t) ℝ × Vec (md t) ℝ)) (dt : ℝ)
    (cfgs : ℕ → Config ℝ) (scr : ℕ → (t : ℝ) → Scratch n (fun i => md (timeAt t dt i)) ℝ)
    (shift : ℝ → List (Σ k : ℕ, Vec k ℝ) → Res (List (Σ k : ℕ, Vec k ℝ))) (o : Obj n ℝ) (t0 : ℝ) (x0 : Vec n ℝ)
    (us : List (Σ k : ℕ, Vec k ℝ)) (s : Mpc n ℝ) (O : ℕ → Obj n ℝ) (X : ℕ → Vec n ℝ) (W : ℕ → List (Σ k : ℕ, Vec k ℝ)) : Prop where
  obj0 : O 0 = o
  state0 : X 0 = x0
  warm0 : W 0 = us
  obj : O s.k = s.obj
  state : X s.k = s.x
  warm : W s.k = s.us
  round : ∀ k < s.k, (∃ b, solve L P lim dt (cfgs k) (O k) (t0 + k * dt) (scr k (t0 + k * dt)) (X k) (W k) = (O (k + 1), .ok b)) ∧
    (O (k + 1)).control.xs[1]? = some (X (k + 1)) ∧ shift (t0 + k * dt) (O (k + 1)).control.us = .ok (W (k + 1)) ∧
    ∃ u, (O (k + 1)).control.us[0]? = some u ∧ s.log[k]? = some { t := t0 + k * dt, x := X k, u := u }

theorem mpcStep_rounds {s s' : Mpc n ℝ} (hc : ∀ k, RoundOk lim N (cfgs k)) (h : ClosedLoop P dt t0 x0 N s)
    (hs' : mpcStep L P lim dt cfgs scr shift endT s = .inl s') {O : ℕ → Obj n ℝ} {X : ℕ → Vec n ℝ} {W : ℕ → List (Σ k : ℕ, Vec k ℝ)}
    (hR : Rounds L P lim dt cfgs scr shift o t0 x0 us s O X W) :
    ∃ O' X' W', Rounds L P lim dt cfgs scr shift o t0 x0 us s' O' X' W' := by
  have hlen : (s.us.length : ℤ) = (cfgs s.k).horizon := by rw [(hc s.k).horizon, h.warmLen]
  have htr := C11_trajectory (L := L) (P := P) (lim := lim) (o := s.obj) (scratch := scr s.k s.t) (x0 := s.x) hlen h.warmDims
  unfold mpcStep at hs'
  split at hs'
  on_goal 2 => cases hs'
  generalize hq : solve L P lim dt (cfgs s.k) s.obj s.t (scr s.k s.t) s.x s.us = q at hs' htr
  obtain ⟨o1, r⟩ := q
  cases r with
  | invalidArgument => cases hs'
  | runtimeError => cases hs'
  | otherException => cases hs'
  | ub => cases hs'
  | diverge => cases hs'
  | ok b =>
  dsimp only at hs' htr
  split at hs'
  on_goal 2 => cases hs'
  rename_i xa ua x1 w e1 e2 e3 e4
  simp only [Sum.inl.injEq] at hs'
  subst hs'
  obtain rfl : xa = s.x := Option.some.inj (e1.symm.trans htr.start)
  rw [h.time] at hq e4
  rw [← hR.obj, ← hR.state, ← hR.warm] at hq
  refine ⟨fun k => if k ≤ s.k then O k else o1, fun k => if k ≤ s.k then X k else x1, fun k => if k ≤ s.k then W k else w,
    by simp [hR.obj0], by simp [hR.state0], by simp [hR.warm0], by simp, by simp, by simp, ?_⟩
  intro k hk
  dsimp only at hk ⊢
  rcases Nat.lt_succ_iff_lt_or_eq.1 hk with h' | h'
  · rw [if_pos h'.le, if_pos h'.le, if_pos h'.le, if_pos (by omega), if_pos (by omega), if_pos (by omega),
      List.getElem?_append_left (by rw [h.len]; exact h')]
    exact hR.round k h'
  · subst h'
    rw [if_pos le_rfl, if_pos le_rfl, if_pos le_rfl, if_neg (by omega), if_neg (by omega), if_neg (by omega)]
    refine ⟨⟨b, hq⟩, e3, e4, ua, e2, ?_⟩
    rw [List.getElem?_append_right (by rw [h.len]), h.len, h.time, hR.state]
    simp

/-- The loop of C67 as a sequence of calls of `solve`. -/
theorem mpcLoop_rounds (hdt : 0 < dt) (hN : 1 ≤ N) (hs : ShiftOk md dt N shift) (hc : ∀ k, RoundOk lim N (cfgs k))
    (hlen : us.length = N) (hd : DimsOk md t0 dt us) :
    ∃ s O X W, mpcLoop L P lim dt cfgs scr shift endT o t0 x0 us = .ok s ∧ s.k = ⌈(endT - t0) / dt⌉₊ ∧
      Rounds L P lim dt cfgs scr shift o t0 x0 us s O X W := by
  have h0 : ClosedLoop P dt t0 x0 N { k := 0, t := t0, x := x0, us := us, obj := o, log := [] } :=
    ⟨by simp, rfl, ⟨fun _ => x0, fun _ _ => 0, rfl, by simp, by simp, rfl⟩, hlen, hd, by simp⟩
  have key : ∀ j (s : Mpc n ℝ) O X W, ClosedLoop P dt t0 x0 N s → Rounds L P lim dt cfgs scr shift o t0 x0 us s O X W →
      s.k + j = ⌈(endT - t0) / dt⌉₊ →
      ∃ s' O X W, loopR (mpcStep L P lim dt cfgs scr shift endT) s = .ok s' ∧ s'.k = ⌈(endT - t0) / dt⌉₊ ∧
        Rounds L P lim dt cfgs scr shift o t0 x0 us s' O X W := by
    intro j
    induction j with
    | zero =>
      intro s O X W hs' hR hk
      refine ⟨s, O, X, W, ?_, hk, hR⟩
      have hle : (endT - t0) / dt ≤ s.k := by
        rw [add_zero] at hk; rw [hk]; exact Nat.le_ceil _
      rw [div_le_iff₀ hdt] at hle
      have : loopM (mpcStep L P lim dt cfgs scr shift endT) s = some (.ok s) := by
        apply loopM_inr
        unfold mpcStep
        rw [if_neg]
        rw [ltb_real, hs'.time]
        linarith
      unfold loopR
      rw [this]
    | succ j ih =>
      intro s O X W hs' hR hk
      have hlt : (s.k : ℝ) < (endT - t0) / dt := Nat.lt_ceil.1 (by omega)
      rw [lt_div_iff₀ hdt] at hlt
      obtain ⟨s', h1, h2, h3⟩ := mpcStep_ok (L := L) (scr := scr) (endT := endT) hN hs hc hs' (by rw [hs'.time]; linarith)
      obtain ⟨O', X', W', hR'⟩ := mpcStep_rounds hc hs' h1 hR
      obtain ⟨s'', O'', X'', W'', h4, h5⟩ := ih s' O' X' W' h3 hR' (by omega)
      refine ⟨s'', O'', X'', W'', ?_, h5⟩
      rw [← h4]
      unfold loopR
      rw [loopM_inl h1]
  exact key _ _ (fun _ => o) (fun _ => x0) (fun _ => us) h0 ⟨rfl, rfl, rfl, rfl, rfl, rfl, by simp⟩ (Nat.zero_add _)

/-- The cost of what `solve` returns is not larger than that of the inputs it was given (exact arithmetic; see C13 for what
holds in floating point). -/
theorem solve_cost_le {cfg : Config ℝ} {scratch : Scratch n (fun i => md (timeAt t0 dt i)) ℝ} (hr : 0 ≤ cfg.costUpdateRatioThre)
    (hN : (us.length : ℤ) = cfg.horizon) {d : ControlData n ℝ} (h : IsTrajectory P t0 dt us.length x0 d) (hu : d.us = us) :
    (solve L P lim dt cfg o t0 scratch x0 us).1.control.costs.sum ≤ d.costs.sum := by
  have hd : DimsOk md t0 dt us := hu ▸ dims_of_trajectory h
  have hst := start_trajectory (P := P) (lim := lim) (cfg := cfg) (x0 := x0) (scratch := scratch) hd
  rw [solve_valid hN hd, h.costs_eq hst.1 (hu.trans hst.2.symm)]
  dsimp only
  rw [totalCost_out, totalCost_out]
  exact (optLoop_cost_trace hr _ _ _).1

/-- A plan that follows a terminal controller costs at most the terminal cost of the first state. -/
theorem exists_plan {κ : (t : ℝ) → Vec n ℝ → Vec (md t) ℝ} (hκ : ∀ t x, tailCost P dt t x (κ t x) ≤ 0) (t : ℝ) (x : Vec n ℝ) (N : ℕ) :
    ∃ d, IsTrajectory P t dt N x d ∧ d.costs.sum ≤ P.terminalCost t x := by
  set S := stagesOf P none t dt N with hS
  set c := rollout N S x fun i y => κ (timeAt t dt i) y with hc
  have hcons : Consistent N S x c := rollout_consistent _ _
  refine ⟨c.out N, out_isTrajectory hcons, ?_⟩
  rw [totalCost_out]
  have htime : ∀ i, timeAt t dt (i + 1) = timeAt t dt i + dt := fun i => by
    simp only [timeAt, lit_real]; push_cast; ring
  have hstep : ∀ i < N, c.cost i ≤ P.terminalCost (timeAt t dt i) (c.x i) - P.terminalCost (timeAt t dt (i + 1)) (c.x (i + 1)) := by
    intro i hi
    have h1 := hκ (timeAt t dt i) (c.x i)
    have h2 : c.u i = κ (timeAt t dt i) (c.x i) := by simp [hc, rollout]
    rw [hcons.run i hi, hcons.step i hi, h2, htime]
    simp only [tailCost] at h1
    show P.runningCost _ _ _ ≤ P.terminalCost _ _ - P.terminalCost _ (P.stateEq _ _ _)
    linarith
  have h3 : totalCost N c = ∑ i ∈ range N, c.cost i + P.terminalCost (timeAt t dt N) (c.x N) := by
    have : c.cost N = P.terminalCost (timeAt t dt N) (c.x N) := hcons.term
    rw [← this]
    simp [totalCost, Fin.sum_univ_eq_sum_range (fun i => c.cost i), sum_range_succ]
  have h4 := sum_le_sum fun i (hi : i ∈ range N) => hstep i (mem_range.1 hi)
  rw [sum_range_sub' (fun i => P.terminalCost (timeAt t dt i) (c.x i))] at h4
  have h5 : timeAt t dt 0 = t := by simp [timeAt]
  rw [h5, hcons.start] at h4
  linarith

/-! ## Linear-quadratic problems with the termination test by the feedforward norm switched off -/

theorem IsLeast'.of_le {m : ℕ → ℕ} {S : Stages n m ℝ} {c c' : Ctrl n m ℝ} (h : IsLeast' N S x0 c) (hc' : Consistent N S x0 c')
    (hle : totalCost N c' ≤ totalCost N c) : IsLeast' N S x0 c' := by
  have h1 := h c' hc'
  have h2 : totalCost N c' = totalCost N c := le_antisymm hle h1.1
  intro c2 hc2
  rw [h2, h1.2 h2]
  exact h c2 hc2

theorem kRelNorm_nonneg' {m : ℕ → ℕ} (s : Solver n m ℝ) : 0 ≤ kRelNorm N s := by
  refine forUp_invariant (fun _ (a : ℝ) => 0 ≤ a) le_rfl ?_
  intro i a _ ha
  rw [fmax_real]
  exact ha.trans (le_max_left _ _)

theorem procOnce_consistent' {m : ℕ → ℕ} {S : Stages n m ℝ} {cfg : Config ℝ} (j : ℕ) {s : Solver n m ℝ} (h : Consistent N S x0 s.ctrl) :
    Consistent N S x0 (procOnce L N cfg S j s).1.ctrl := by
  have h1 := optLoop_consistent (L := L) (cfg := cfg) 1 j h
  unfold optLoop at h1
  generalize procOnce L N cfg S j s = q at h1
  obtain ⟨s', e⟩ := q
  cases e with
  | ok v => dsimp only at h1 ⊢; split at h1 <;> exact h1
  | invalidArgument => exact h1
  | runtimeError => exact h1
  | otherException => exact h1
  | ub => exact h1
  | diverge => exact h1

variable {p : LQProblem n md} {cfg : Config ℝ}

/-- The first iteration without regularisation finds the minimiser. -/
theorem lq_first (hL : L.Exact) (hp : p.Convex) (hw : cfg.withConstraint = false) (h2 : cfg.useSecond = false)
    (hk : cfg.kRelNormThre ≤ 0) {as : List ℝ} (ha : cfg.alphaList = 1 :: as) (hr0 : 0 ≤ cfg.costUpdateRatioThre)
    (hr : cfg.costUpdateRatioThre < 1) {iter : ℕ} {s : Solver n (fun i => md (timeAt t0 dt i)) ℝ} (h0 : s.lambda = 0)
    (hc : Consistent N (stagesOf p.callbacks lim t0 dt N) x0 s.ctrl) :
    IsLeast' N (stagesOf p.callbacks lim t0 dt N) x0 (procOnce L N cfg (stagesOf p.callbacks lim t0 dt N) iter s).1.ctrl := by
  set S := stagesOf p.callbacks lim t0 dt N with hS
  have hle := procOnce_cost_le (L := L) (N := N) (cfg := cfg) (S := S) hr0 iter s
  have hcons := procOnce_consistent' (L := L) (N := N) (cfg := cfg) (S := S) iter hc
  obtain ⟨s2, hb, hl, _⟩ := bwSearch_convex (L := L) (cfg := cfg) (S := S) hL hw h2
    (s := startIter N cfg S iter s) (le_of_eq h0.symm) (lq_convexModel hp _ _)
  have hl0 : s2.lambda = 0 := hl.trans h0
  obtain ⟨G, hG⟩ := newtonStep hL hw hb hl0 (lq_exactModel _ _) hc
  rcases hG.nonneg.lt_or_eq with hGpos | hG0
  on_goal 2 =>
    refine IsLeast'.of_le (c := s.ctrl) (fun c' hc' => ?_) hcons hle
    have h3 := hG.minimiser hc hc'
    have h4 := hG.minimiser hc hc
    rw [hG.cand, ← hG0] at h3 h4
    simp only [sub_zero, mul_zero, add_zero] at h3 h4
    exact ⟨h3.1, fun h => (h3.2 h).trans (h4.2 trivial).symm⟩
  have hex : (tryAlpha N cfg S s2 1).expected = G := by
    rw [(tryAlpha_real s2 1).2, hG.dV0, hG.dV1]; ring
  have hac : (tryAlpha N cfg S s2 1).actual = G := by rw [hG.exact, hex]
  have hratio : (tryAlpha N cfg S s2 1).ratio = 1 := by
    have h1 : (tryAlpha N cfg S s2 1).ratio = if ltb (tryAlpha N cfg S s2 1).expected 0 then
        (if leb 0 (tryAlpha N cfg S s2 1).actual then 1 else -1)
      else (tryAlpha N cfg S s2 1).actual / (tryAlpha N cfg S s2 1).expected := rfl
    rw [h1, hex, hac, if_neg (by simpa using hGpos.le), div_self hGpos.ne']
  have hsucc : (tryAlpha N cfg S s2 1).success = true := by
    have h1 : (tryAlpha N cfg S s2 1).success = ltb cfg.costUpdateRatioThre (tryAlpha N cfg S s2 1).ratio := rfl
    rw [h1, hratio]; simpa using hr
  have hls : lineSearch N cfg S s2 = tryAlpha N cfg S s2 1 := by
    unfold lineSearch
    rw [ha]
    unfold tryAlphas
    simp only [hsucc, if_true]
  have hcand : (lineSearch N cfg S s2).cand = forwardPass N S s.ctrl s2.gains 1 := by rw [hls, ← hG.ctrl]; rfl
  have hout := procOnce_out (L := L) (N := N) (cfg := cfg) (S := S) iter s
  generalize procOnce L N cfg S iter s = r at hout
  cases hout with
  | bwFail s3 hb' => rw [hb] at hb'; cases hb'
  | err s3 e he hb' => rw [hb] at hb'; cases hb'; exact absurd rfl (he _)
  | small s3 hb' hk' hl' =>
    rw [hb] at hb'; cases hb'
    rw [ltb_real] at hk'
    exact absurd (kRelNorm_nonneg' s2) (by linarith)
  | full s3 hb' hk' =>
    rw [hb] at hb'; cases hb'
    have hf := finishStep_out (N := N) (cfg := cfg) s.trace
      { Trace.new iter with
        kRelNorm := kRelNorm N s2, alpha := (lineSearch N cfg S s2).alpha, actual := (lineSearch N cfg S s2).actual,
        expected := (lineSearch N cfg S s2).expected, ratio := (lineSearch N cfg S s2).ratio } (lineSearch N cfg S s2) s2
    generalize finishStep N cfg s.trace _ (lineSearch N cfg S s2) s2 = q at hf
    cases hf with
    | reject hs v hv => rw [hls, hsucc] at hs; cases hs
    | accept hs v hv =>
      show IsLeast' N S x0 (lineSearch N cfg S s2).cand
      rw [hcand]
      intro c' hc'
      exact hG.minimiser hc hc'

/-- On a convex linear-quadratic problem without limits, with zero initial regularisation and `k_rel_norm_thre ≤ 0`, `solve` always
ends at the unique minimiser. -/
theorem lq_solve_exact {scratch : Scratch n (fun i => md (timeAt t0 dt i)) ℝ} (hL : L.Exact) (hp : p.Convex)
    (hw : cfg.withConstraint = false) (h2 : cfg.useSecond = false) (hk : cfg.kRelNormThre ≤ 0) {as : List ℝ}
    (ha : cfg.alphaList = 1 :: as) (hr0 : 0 ≤ cfg.costUpdateRatioThre) (hr : cfg.costUpdateRatioThre < 1)
    (h0 : cfg.initialLambda = 0) (hm : 1 ≤ cfg.maxIter) (hN : (us.length : ℤ) = cfg.horizon)
    (hd : DimsOk md t0 dt us) {d : ControlData n ℝ} (hd' : IsTrajectory p.callbacks t0 dt us.length x0 d) :
    (solve L p.callbacks lim dt cfg o t0 scratch x0 us).1.control.costs.sum ≤ d.costs.sum ∧
      (d.costs.sum = (solve L p.callbacks lim dt cfg o t0 scratch x0 us).1.control.costs.sum →
        d = (solve L p.callbacks lim dt cfg o t0 scratch x0 us).1.control) := by
  rw [solve_valid hN hd]
  dsimp only
  obtain ⟨c', h1, rfl⟩ := hd'.exists_ctrl (lim := lim)
  rw [totalCost_out, totalCost_out]
  have hc0 : Consistent us.length (stagesOf p.callbacks lim t0 dt us.length) x0
      (start p.callbacks lim dt cfg t0 scratch x0 us).ctrl := rollout_consistent _ _
  suffices h : IsLeast' us.length (stagesOf p.callbacks lim t0 dt us.length) x0 (final L p.callbacks lim dt cfg t0 scratch x0 us).1.ctrl from
    h c' h1
  obtain ⟨r, hr2⟩ : ∃ r, cfg.maxIter.toNat = r + 1 := ⟨cfg.maxIter.toNat - 1, by omega⟩
  have h3 := lq_first (L := L) (lim := lim) (iter := 1) hL hp hw h2 hk ha hr0 hr (h0 : (start p.callbacks lim dt cfg t0 scratch x0 us).lambda = 0) hc0
  have h4 := procOnce_consistent' (L := L) (N := us.length) (cfg := cfg) (S := stagesOf p.callbacks lim t0 dt us.length) 1 hc0
  rw [final, hr2]
  unfold optLoop
  generalize procOnce L us.length cfg (stagesOf p.callbacks lim t0 dt us.length) 1 (start p.callbacks lim dt cfg t0 scratch x0 us) = q at h3 h4
  obtain ⟨s', e⟩ := q
  cases e with
  | ok v =>
    dsimp only at h3 h4 ⊢
    split
    · exact h3
    · exact h3.of_le (optLoop_consistent _ _ h4) (optLoop_cost_trace hr0 _ _ _).1
  | invalidArgument => exact h3
  | runtimeError => exact h3
  | otherException => exact h3
  | ub => exact h3
  | diverge => exact h3

end Nmpc.DDP
