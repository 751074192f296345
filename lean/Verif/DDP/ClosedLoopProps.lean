import Verif.DDP.ClosedLoop

/-!
# C120: cost and stability of the receding-horizon loops
-/

set_option linter.unusedSectionVars false

namespace Nmpc.DDP

open Finset

variable {n : ℕ} {md : ℝ → ℕ} {L : LLT ℝ} {P : Callbacks n md} {lim : Option ((t : ℝ) → Vec (md t) ℝ × Vec (md t) ℝ)}
  {dt : ℝ} {cfgs : ℕ → Config ℝ} {scr : ℕ → (t : ℝ) → Scratch n (fun i => md (timeAt t dt i)) ℝ}
  {shift : ℝ → List (Σ k : ℕ, Vec k ℝ) → Res (List (Σ k : ℕ, Vec k ℝ))} {endT t0 : ℝ} {o : Obj n ℝ} {x0 : Vec n ℝ}
  {us : List (Σ k : ℕ, Vec k ℝ)} {N : ℕ}

/-- Specification: `D k` is the plan of round `k`, `X k` and `U k` the state and the applied input, `E k` the last planned state. -/
structure Plans (P : Callbacks n md) (dt t0 : ℝ) (x0 : Vec n ℝ) (N : ℕ) (s : Mpc n ℝ) (D : ℕ → ControlData n ℝ) (X : ℕ → Vec n ℝ)
    (U : (k : ℕ) → Vec (md (t0 + k * dt)) ℝ) (E : ℕ → Vec n ℝ) : Prop where
  state0 : X 0 = x0
  state : s.x = X s.k
  last : 0 < s.k → D (s.k - 1) = s.obj.control
  plan : ∀ k < s.k, IsTrajectory P (t0 + k * dt) dt N (X k) (D k)
  input : ∀ k < s.k, (D k).us[0]? = some ⟨md (t0 + k * dt), U k⟩
  next : ∀ k < s.k, (D k).xs[1]? = some (X (k + 1))
  dyn : ∀ k < s.k, X (k + 1) = P.stateEq (t0 + k * dt) (X k) (U k)
  stop : ∀ k < s.k, (D k).xs[N]? = some (E k)
  log : ∀ k < s.k, s.log[k]? = some { t := t0 + k * dt, x := X k, u := ⟨md (t0 + k * dt), U k⟩ }

/-- The first step of a trajectory. -/
theorem IsTrajectory.first {d : ControlData n ℝ} (h : IsTrajectory P t0 dt N x0 d) (hN : 1 ≤ N) :
    ∃ u : Vec (md t0) ℝ, d.us[0]? = some ⟨md t0, u⟩ ∧ d.xs[1]? = some (P.stateEq t0 x0 u) := by
  have ht0 : t0 + lit ((0 : ℕ) : ℚ) * dt = t0 := by simp
  have hst := h.step 0 (by omega)
  rw [ht0] at hst
  obtain ⟨x, u, h2, h3, h4, _⟩ := hst
  obtain rfl : x = x0 := Option.some.inj (h2.symm.trans h.start)
  exact ⟨u, h3, h4⟩

theorem Rounds.warm_ok {s : Mpc n ℝ} {O : ℕ → Obj n ℝ} {X : ℕ → Vec n ℝ} {W : ℕ → List (Σ k : ℕ, Vec k ℝ)} (hs : ShiftOk md dt N shift)
    (hc : ∀ k, RoundOk lim N (cfgs k)) (hlen : us.length = N) (hd : DimsOk md t0 dt us)
    (h : Rounds L P lim dt cfgs scr shift o t0 x0 us s O X W) {k : ℕ} (hk : k ≤ s.k) :
    (W k).length = N ∧ DimsOk md (t0 + k * dt) dt (W k) ∧
      (0 < k → IsTrajectory P (t0 + (k - 1 : ℕ) * dt) dt N (X (k - 1)) (O k).control) := by
  induction k with
  | zero => rw [h.warm0]; exact ⟨hlen, by simpa using hd, by simp⟩
  | succ k ih =>
    obtain ⟨h1, h2, -⟩ := ih (by omega)
    obtain ⟨⟨b, h3⟩, _, h4, _⟩ := h.round k (by omega)
    have htr := C11_trajectory (L := L) (P := P) (lim := lim) (o := O k) (scratch := scr k (t0 + k * dt)) (x0 := X k)
      (cfg := cfgs k) (by rw [(hc k).horizon, h1]) h2
    rw [h3, h1] at htr
    dsimp only at htr
    obtain ⟨w, h5, h6, h7, _⟩ := hs _ _ htr.lenU (dims_of_trajectory htr)
    rw [h4] at h5
    cases h5
    refine ⟨h6, ?_, fun _ => htr⟩
    have : t0 + ((k + 1 : ℕ) : ℝ) * dt = t0 + k * dt + dt := by push_cast; ring
    rw [this]; exact h7

theorem Rounds.plans {s : Mpc n ℝ} {O : ℕ → Obj n ℝ} {X : ℕ → Vec n ℝ} {W : ℕ → List (Σ k : ℕ, Vec k ℝ)} (hN : 1 ≤ N)
    (hs : ShiftOk md dt N shift) (hc : ∀ k, RoundOk lim N (cfgs k)) (hlen : us.length = N) (hd : DimsOk md t0 dt us)
    (h : Rounds L P lim dt cfgs scr shift o t0 x0 us s O X W) :
    ∃ U E, Plans P dt t0 x0 N s (fun k => (O (k + 1)).control) X U E := by
  have htr : ∀ k < s.k, IsTrajectory P (t0 + k * dt) dt N (X k) (O (k + 1)).control := fun k hk =>
    (h.warm_ok hs hc hlen hd (show k + 1 ≤ s.k by omega)).2.2 (by omega)
  have hU : ∀ k : ℕ, ∃ u : Vec (md (t0 + k * dt)) ℝ, k < s.k → (O (k + 1)).control.us[0]? = some ⟨_, u⟩ ∧
      (O (k + 1)).control.xs[1]? = some (P.stateEq _ (X k) u) := fun k => by
    by_cases hk : k < s.k
    · obtain ⟨u, hu⟩ := (htr k hk).first hN
      exact ⟨u, fun _ => hu⟩
    · exact ⟨0, fun h => absurd h hk⟩
  have hE : ∀ k : ℕ, ∃ x, k < s.k → (O (k + 1)).control.xs[N]? = some x := fun k => by
    by_cases hk : k < s.k
    · obtain ⟨x, hx, _⟩ := (htr k hk).term
      exact ⟨x, fun _ => hx⟩
    · exact ⟨0, fun h => absurd h hk⟩
  choose U hU using hU
  choose E hE using hE
  refine ⟨U, E, h.state0, h.state.symm, fun h0 => ?_, htr, fun k hk => (hU k hk).1, fun k hk => (h.round k hk).2.1, fun k hk => ?_, hE,
    fun k hk => ?_⟩
  · show (O (s.k - 1 + 1)).control = _
    rw [Nat.sub_add_cancel h0, h.obj]
  · have h1 := (hU k hk).2
    rw [(h.round k hk).2.1] at h1
    exact Option.some.inj h1
  · obtain ⟨_, _, _, u, h1, h2⟩ := h.round k hk
    rw [(hU k hk).1] at h1
    rw [h2, ← Option.some.inj h1]

/-- **C120** The cost of the plans of a receding-horizon loop.  For every problem (also nonlinear, time-varying, with limits), every
number of iterations per round and every way of shifting that C67 admits: the first plan costs at most what the initial guess
costs; and from one round to the next the cost of the plan decreases at least by the running cost of the step that was applied,
up to what the step appended to the plan (with the last input of the warm start) adds. -/
theorem C120_decrease (hdt : 0 < dt) (hN : 1 ≤ N) (hs : ShiftOk md dt N shift) (hc : ∀ k, RoundOk lim N (cfgs k))
    (hr : ∀ k, 0 ≤ (cfgs k).costUpdateRatioThre) (hlen : us.length = N) (hd : DimsOk md t0 dt us) :
    ∃ s D X U E, mpcLoop L P lim dt cfgs scr shift endT o t0 x0 us = .ok s ∧ s.k = ⌈(endT - t0) / dt⌉₊ ∧
      Plans P dt t0 x0 N s D X U E ∧
      (0 < s.k → ∀ d, IsTrajectory P t0 dt N x0 d → d.us = us → (D 0).costs.sum ≤ d.costs.sum) ∧
      ∀ k, k + 1 < s.k → ∃ v w, shift (t0 + k * dt) (D k).us = .ok w ∧ w[N - 1]? = some ⟨md (t0 + k * dt + N * dt), v⟩ ∧
        (D (k + 1)).costs.sum + P.runningCost (t0 + k * dt) (X k) (U k) ≤
          (D k).costs.sum + tailCost P dt (t0 + k * dt + N * dt) (E k) v := by
  obtain ⟨s, O, X, W, h1, h2, h3⟩ := mpcLoop_rounds (L := L) (P := P) (scr := scr) (endT := endT) (o := o) (x0 := x0) hdt hN hs hc hlen hd
  obtain ⟨U, E, h4⟩ := h3.plans hN hs hc hlen hd
  refine ⟨s, _, X, U, E, h1, h2, h4, ?_, ?_⟩
  · intro h0 d hd1 hd2
    obtain ⟨⟨b, h5⟩, -⟩ := h3.round 0 h0
    have h6 := solve_cost_le (L := L) (lim := lim) (cfg := cfgs 0) (o := O 0) (scratch := scr 0 (t0 + (0 : ℕ) * dt)) (P := P) (us := us)
      (t0 := t0 + (0 : ℕ) * dt) (x0 := x0) (hr 0) (by rw [(hc 0).horizon, hlen]) (d := d) (by simpa [hlen] using hd1) hd2
    rw [h3.warm0, h3.state0] at h5
    rw [h5] at h6
    exact h6
  · intro k hk
    have htr := h4.plan k (by omega)
    obtain ⟨⟨b, h5⟩, -⟩ := h3.round (k + 1) hk
    obtain ⟨_, _, h6, _⟩ := h3.round k (by omega)
    obtain ⟨w, h7, h8, h9, h10⟩ := hs _ _ htr.lenU (dims_of_trajectory htr)
    have h6' := h6.symm.trans h7
    have hw : W (k + 1) = w := by cases h6'; rfl
    have htime : t0 + k * dt + dt + lit ((N - 1 : ℕ) : ℚ) * dt = t0 + k * dt + N * dt := by
      simp only [lit_real, Nat.cast_sub hN]; push_cast; ring
    have hlast : ∃ v, w[N - 1]? = some ⟨md (t0 + k * dt + N * dt), v⟩ := by
      have := h9 (N - 1) (by omega)
      rw [htime] at this
      rw [List.getElem?_eq_getElem (by omega)]
      exact ⟨this ▸ (w[N - 1]'(by omega)).2, by congr 1; exact Sigma.ext this (by simp)⟩
    obtain ⟨v, hv⟩ := hlast
    obtain ⟨d', h11, h12, h13⟩ := htr.shifted hN (h4.next k (by omega)) (h4.stop k (by omega)) (h4.input k (by omega)) v
    refine ⟨v, w, h7, hv, ?_⟩
    have hus : d'.us = W (k + 1) := by
      rw [h12, hw]
      refine List.ext_getElem? fun i => ?_
      have hl : (O (k + 1)).control.us.tail.length = N - 1 := by rw [List.length_tail]; exact congrArg (· - 1) htr.lenU
      rcases lt_trichotomy i (N - 1) with hi | hi | hi
      · rw [List.getElem?_append_left (by rw [hl]; exact hi), h10 i (by omega), List.getElem?_tail]
      · subst hi
        rw [List.getElem?_append_right (by rw [hl]), hl, hv]; simp
      · rw [List.getElem?_eq_none (by simp only [List.length_append, hl, List.length_singleton]; omega), List.getElem?_eq_none (by omega)]
    have ht : t0 + k * dt + dt = t0 + ((k + 1 : ℕ) : ℝ) * dt := by push_cast; ring
    rw [ht] at h11
    have h14 := solve_cost_le (L := L) (lim := lim) (cfg := cfgs (k + 1)) (o := O (k + 1)) (scratch := scr (k + 1) (t0 + (k + 1 : ℕ) * dt))
      (P := P) (us := W (k + 1)) (t0 := t0 + (k + 1 : ℕ) * dt) (x0 := X (k + 1)) (hr _) (by rw [(hc _).horizon, hw, h8]) (d := d')
      (by rw [hw, h8]; exact h11) hus
    rw [h5] at h14
    have h15 : (O (k + 1 + 1)).control.costs.sum ≤ d'.costs.sum := h14
    rw [h13] at h15
    show (O (k + 1 + 1)).control.costs.sum + _ ≤ _
    linarith

/-- **C120** Summed up: the running costs of the applied steps and the cost of the last plan together are at most the cost of the
initial guess and the contributions of the appended steps. -/
theorem C120_total (hdt : 0 < dt) (hN : 1 ≤ N) (hs : ShiftOk md dt N shift) (hc : ∀ k, RoundOk lim N (cfgs k))
    (hr : ∀ k, 0 ≤ (cfgs k).costUpdateRatioThre) (hlen : us.length = N) (hd : DimsOk md t0 dt us) {K : ℕ}
    (hK : ⌈(endT - t0) / dt⌉₊ = K + 1) {d : ControlData n ℝ} (hd0 : IsTrajectory P t0 dt N x0 d) (hu : d.us = us) :
    ∃ s D X U E, ∃ V : (k : ℕ) → Vec (md (t0 + k * dt + N * dt)) ℝ, mpcLoop L P lim dt cfgs scr shift endT o t0 x0 us = .ok s ∧
      s.k = K + 1 ∧ Plans P dt t0 x0 N s D X U E ∧
      (∀ k < K, ∃ w, shift (t0 + k * dt) (D k).us = .ok w ∧ w[N - 1]? = some ⟨md (t0 + k * dt + N * dt), V k⟩) ∧
      ∑ k ∈ range K, P.runningCost (t0 + k * dt) (X k) (U k) + s.obj.control.costs.sum ≤
        d.costs.sum + ∑ k ∈ range K, tailCost P dt (t0 + k * dt + N * dt) (E k) (V k) := by
  obtain ⟨s, D, X, U, E, h1, h2, h3, h4, h5⟩ := C120_decrease (L := L) (P := P) (scr := scr) (endT := endT) (o := o) (x0 := x0)
    hdt hN hs hc hr hlen hd
  rw [hK] at h2
  have hV : ∀ k : ℕ, ∃ v : Vec (md (t0 + k * dt + N * dt)) ℝ, k < K → (∃ w, shift (t0 + k * dt) (D k).us = .ok w ∧
      w[N - 1]? = some ⟨md (t0 + k * dt + N * dt), v⟩) ∧ (D (k + 1)).costs.sum + P.runningCost (t0 + k * dt) (X k) (U k) ≤
          (D k).costs.sum + tailCost P dt (t0 + k * dt + N * dt) (E k) v := fun k => by
    by_cases hk : k < K
    · obtain ⟨v, w, h6, h7, h8⟩ := h5 k (by omega)
      exact ⟨v, fun _ => ⟨⟨w, h6, h7⟩, h8⟩⟩
    · exact ⟨0, fun h => absurd h hk⟩
  choose V hV using hV
  refine ⟨s, D, X, U, E, V, h1, h2, h3, fun k hk => (hV k hk).1, ?_⟩
  have key : ∀ j ≤ K, ∑ k ∈ range j, P.runningCost (t0 + k * dt) (X k) (U k) + (D j).costs.sum ≤
      d.costs.sum + ∑ k ∈ range j, tailCost P dt (t0 + k * dt + N * dt) (E k) (V k) := by
    intro j
    induction j with
    | zero => intro _; simpa using h4 (by omega) d hd0 hu
    | succ j ih =>
      intro hj
      have h6 := ih (by omega)
      have h7 := (hV j (by omega)).2
      rw [sum_range_succ, sum_range_succ]
      linarith
  have h8 := key K le_rfl
  rw [← h3.last (by omega), h2]
  exact h8

/-- **C120** If every round ends within `δ` of the minimal cost and the terminal cost decreases along some controller `κ` at least by
the running cost, the plans decrease by the running cost of the applied step up to `δ`. -/
theorem C120_optimal (hdt : 0 < dt) (hN : 1 ≤ N) (hs : ShiftOk md dt N shift) (hc : ∀ k, RoundOk lim N (cfgs k))
    (hlen : us.length = N) (hd : DimsOk md t0 dt us) {κ : (t : ℝ) → Vec n ℝ → Vec (md t) ℝ}
    (hκ : ∀ t x, P.runningCost t x (κ t x) + P.terminalCost (t + dt) (P.stateEq t x (κ t x)) ≤ P.terminalCost t x) {δ : ℝ}
    (hopt : ∀ k o t x w, w.length = N → DimsOk md t dt w → ∀ d, IsTrajectory P t dt N x d →
      (solve L P lim dt (cfgs k) o t (scr k t) x w).1.control.costs.sum ≤ d.costs.sum + δ) :
    ∃ s D X U E, mpcLoop L P lim dt cfgs scr shift endT o t0 x0 us = .ok s ∧ s.k = ⌈(endT - t0) / dt⌉₊ ∧
      Plans P dt t0 x0 N s D X U E ∧
      (∀ k < s.k, (D k).costs.sum ≤ P.terminalCost (t0 + k * dt) (X k) + δ) ∧
      ∀ k, k + 1 < s.k → (D (k + 1)).costs.sum + P.runningCost (t0 + k * dt) (X k) (U k) ≤ (D k).costs.sum + δ := by
  have hκ' : ∀ t x, tailCost P dt t x (κ t x) ≤ 0 := fun t x => by
    have := hκ t x
    simp only [tailCost]; linarith
  obtain ⟨s, O, X, W, h1, h2, h3⟩ := mpcLoop_rounds (L := L) (P := P) (scr := scr) (endT := endT) (o := o) (x0 := x0) hdt hN hs hc hlen hd
  obtain ⟨U, E, h4⟩ := h3.plans hN hs hc hlen hd
  have hmin : ∀ k < s.k, ∀ d, IsTrajectory P (t0 + k * dt) dt N (X k) d → (O (k + 1)).control.costs.sum ≤ d.costs.sum + δ := by
    intro k hk d hdt
    obtain ⟨h5, h6, -⟩ := h3.warm_ok hs hc hlen hd hk.le
    obtain ⟨⟨b, h7⟩, -⟩ := h3.round k hk
    have := hopt k (O k) _ (X k) (W k) h5 h6 d hdt
    rwa [h7] at this
  refine ⟨s, _, X, U, E, h1, h2, h4, fun k hk => ?_, fun k hk => ?_⟩
  · obtain ⟨d, h5, h6⟩ := exists_plan hκ' (t0 + k * dt) (X k) N
    have := hmin k hk d h5
    show (O (k + 1)).control.costs.sum ≤ _
    linarith
  · obtain ⟨d', h11, -, h13⟩ := (h4.plan k (by omega)).shifted hN (h4.next k (by omega)) (h4.stop k (by omega)) (h4.input k (by omega))
      (κ _ (E k))
    have ht : t0 + k * dt + dt = t0 + ((k + 1 : ℕ) : ℝ) * dt := by push_cast; ring
    rw [ht] at h11
    have h5 := hmin (k + 1) hk d' h11
    have h6 := hκ' (t0 + k * dt + N * dt) (E k)
    show (O (k + 1 + 1)).control.costs.sum + _ ≤ _
    linarith

/-- A trajectory with non-negative costs costs at least its first step, and the second if there is one. -/
theorem IsTrajectory.first_le {d : ControlData n ℝ} (h : IsTrajectory P t0 dt N x0 d) (hN : 1 ≤ N)
    (hl : ∀ t x u, 0 ≤ P.runningCost t x u) (hφ : ∀ t x, 0 ≤ P.terminalCost t x) {u : Vec (md t0) ℝ} (hu : d.us[0]? = some ⟨md t0, u⟩) :
    P.runningCost t0 x0 u ≤ d.costs.sum ∧
    (2 ≤ N → ∃ v, P.runningCost t0 x0 u + P.runningCost (t0 + dt) (P.stateEq t0 x0 u) v ≤ d.costs.sum) := by
  have hnn : ∀ c ∈ d.costs, 0 ≤ c := by
    intro c hcm
    obtain ⟨i, hi, rfl⟩ := List.mem_iff_getElem.1 hcm
    rw [h.lenC] at hi
    rcases Nat.lt_succ_iff_lt_or_eq.1 hi with h1 | h1
    · obtain ⟨x, u, _, _, _, h2⟩ := h.step i h1
      rw [List.getElem?_eq_getElem (by rw [h.lenC]; exact hi)] at h2
      rw [Option.some.inj h2]; exact hl _ _ _
    · subst h1
      obtain ⟨x, _, h2⟩ := h.term
      rw [List.getElem?_eq_getElem (by rw [h.lenC]; exact hi)] at h2
      rw [Option.some.inj h2]; exact hφ _ _
  have ht0 : t0 + lit ((0 : ℕ) : ℚ) * dt = t0 := by simp
  have hst := h.step 0 (by omega)
  rw [ht0] at hst
  obtain ⟨x, u', h2, h3, h4, h5⟩ := hst
  obtain rfl : x = x0 := Option.some.inj (h2.symm.trans h.start)
  obtain rfl : u' = u := by
    have := h3.symm.trans hu
    simpa using this
  obtain ⟨c, cs, hcs⟩ : ∃ c cs, d.costs = c :: cs := by
    match hd : d.costs with
    | [] => have := h.lenC; rw [hd] at this; simp at this
    | c :: cs => exact ⟨c, cs, rfl⟩
  rw [hcs] at hnn h5 ⊢
  simp only [List.getElem?_cons_zero, Option.some.injEq] at h5
  simp only [List.mem_cons, forall_eq_or_imp] at hnn
  rw [List.sum_cons, ← h5]
  refine ⟨by linarith [List.sum_nonneg hnn.2], fun hN2 => ?_⟩
  have ht1 : t0 + lit ((1 : ℕ) : ℚ) * dt = t0 + dt := by simp
  have hst := h.step 1 (by omega)
  rw [ht1] at hst
  obtain ⟨x', v, h6, _, _, h7⟩ := hst
  rw [Nat.zero_add] at h4
  obtain rfl : x' = P.stateEq t0 x u' := Option.some.inj (h6.symm.trans h4)
  refine ⟨v, ?_⟩
  rw [hcs, List.getElem?_cons_succ] at h7
  obtain ⟨c', cs', rfl⟩ : ∃ c' cs', cs = c' :: cs' := by
    match cs with
    | [] => simp at h7
    | c' :: cs' => exact ⟨c', cs', rfl⟩
  simp only [List.getElem?_cons_zero, Option.some.injEq] at h7
  rw [← h7, List.sum_cons]
  linarith [List.sum_nonneg fun c hc => hnn.2 c (List.mem_cons_of_mem _ hc)]

/-- **C120** Under the conditions of `C120_optimal` and with non-negative costs, the total running cost of the closed loop is at most
the terminal cost of the initial state, up to `δ` per round. -/
theorem C120_closed_loop_cost (hdt : 0 < dt) (hN : 1 ≤ N) (hs : ShiftOk md dt N shift) (hc : ∀ k, RoundOk lim N (cfgs k))
    (hlen : us.length = N) (hd : DimsOk md t0 dt us) {κ : (t : ℝ) → Vec n ℝ → Vec (md t) ℝ}
    (hκ : ∀ t x, P.runningCost t x (κ t x) + P.terminalCost (t + dt) (P.stateEq t x (κ t x)) ≤ P.terminalCost t x) {δ : ℝ}
    (hopt : ∀ k o t x w, w.length = N → DimsOk md t dt w → ∀ d, IsTrajectory P t dt N x d →
      (solve L P lim dt (cfgs k) o t (scr k t) x w).1.control.costs.sum ≤ d.costs.sum + δ)
    (hl : ∀ t x u, 0 ≤ P.runningCost t x u) (hφ : ∀ t x, 0 ≤ P.terminalCost t x) :
    ∃ s D X U E, mpcLoop L P lim dt cfgs scr shift endT o t0 x0 us = .ok s ∧ s.k = ⌈(endT - t0) / dt⌉₊ ∧
      Plans P dt t0 x0 N s D X U E ∧
      ∑ k ∈ range s.k, P.runningCost (t0 + k * dt) (X k) (U k) ≤ P.terminalCost t0 x0 + s.k * δ := by
  obtain ⟨s, D, X, U, E, h1, h2, h3, h4, h5⟩ := C120_optimal (L := L) (P := P) (scr := scr) (endT := endT) (o := o) (x0 := x0)
    hdt hN hs hc hlen hd hκ hopt
  refine ⟨s, D, X, U, E, h1, h2, h3, ?_⟩
  have key : ∀ j, j < s.k → ∑ k ∈ range j, P.runningCost (t0 + k * dt) (X k) (U k) + (D j).costs.sum ≤
      P.terminalCost t0 x0 + (j + 1 : ℕ) * δ := by
    intro j
    induction j with
    | zero =>
      intro hj
      have := h4 0 hj
      rw [h3.state0] at this
      simpa using this
    | succ j ih =>
      intro hj
      have h6 := ih (by omega)
      have h7 := h5 j hj
      rw [sum_range_succ]
      push_cast at h6 ⊢
      linarith
  cases hk : s.k with
  | zero => simpa using hφ t0 x0
  | succ K =>
    have h6 := key K (by omega)
    have h7 := ((h3.plan K (by omega)).first_le hN hl hφ (h3.input K (by omega))).1
    rw [sum_range_succ]
    push_cast at h6 ⊢
    linarith

/-- **C120** Exponential stability of the closed loop.  If every round ends at the minimal cost, the terminal cost decreases along some
controller at least by the running cost, `a σ ≤ l` and `0 ≤ φ ≤ b σ` for a function `σ ≥ 0` that measures the deviation from the
desired motion, then the deviation shrinks geometrically: `σ(t_k, x_k) ≤ (b/a) (1 - a/b)^k σ(t0, x0)`. -/
theorem C120_stable (hdt : 0 < dt) (hN : 2 ≤ N) (hs : ShiftOk md dt N shift) (hc : ∀ k, RoundOk lim N (cfgs k))
    (hlen : us.length = N) (hd : DimsOk md t0 dt us) {κ : (t : ℝ) → Vec n ℝ → Vec (md t) ℝ}
    (hκ : ∀ t x, P.runningCost t x (κ t x) + P.terminalCost (t + dt) (P.stateEq t x (κ t x)) ≤ P.terminalCost t x)
    (hopt : ∀ k o t x w, w.length = N → DimsOk md t dt w → ∀ d, IsTrajectory P t dt N x d →
      (solve L P lim dt (cfgs k) o t (scr k t) x w).1.control.costs.sum ≤ d.costs.sum)
    {σ : ℝ → Vec n ℝ → ℝ} (hσ : ∀ t x, 0 ≤ σ t x) {a b : ℝ} (ha : 0 < a) (hb : a ≤ b)
    (hl : ∀ t x u, a * σ t x ≤ P.runningCost t x u) (hφ : ∀ t x, 0 ≤ P.terminalCost t x) (hφb : ∀ t x, P.terminalCost t x ≤ b * σ t x) :
    ∃ s D X U E, mpcLoop L P lim dt cfgs scr shift endT o t0 x0 us = .ok s ∧ s.k = ⌈(endT - t0) / dt⌉₊ ∧
      Plans P dt t0 x0 N s D X U E ∧ ∀ k ≤ s.k, σ (t0 + k * dt) (X k) ≤ b / a * (1 - a / b) ^ k * σ t0 x0 := by
  obtain ⟨s, D, X, U, E, h1, h2, h3, h4, h5⟩ := C120_optimal (L := L) (P := P) (scr := scr) (endT := endT) (o := o) (x0 := x0) (δ := 0)
    hdt (by omega) hs hc hlen hd hκ fun k o t x w h h' d hd => by rw [add_zero]; exact hopt k o t x w h h' d hd
  simp only [add_zero] at h4 h5
  refine ⟨s, D, X, U, E, h1, h2, h3, ?_⟩
  have hb0 : 0 < b := ha.trans_le hb
  have hl0 : ∀ t x u, 0 ≤ P.runningCost t x u := fun t x u => (mul_nonneg ha.le (hσ t x)).trans (hl t x u)
  have hdec : ∀ k < s.k, (D k).costs.sum - P.runningCost (t0 + k * dt) (X k) (U k) ≤ (1 - a / b) * (D k).costs.sum := by
    intro k hk
    have h6 := hl (t0 + k * dt) (X k) (U k)
    have h7 := (h4 k hk).trans (hφb _ _)
    have h8 : a / b * (D k).costs.sum ≤ a * σ (t0 + k * dt) (X k) := by
      rw [div_mul_eq_mul_div, div_le_iff₀ hb0]
      nlinarith
    linarith
  have hq : 0 ≤ 1 - a / b := by rw [sub_nonneg, div_le_one hb0]; exact hb
  have key : ∀ k < s.k, (D k).costs.sum ≤ (1 - a / b) ^ k * (b * σ t0 x0) := by
    intro k
    induction k with
    | zero =>
      intro hk
      have h6 := (h4 0 hk).trans (hφb _ _)
      rw [h3.state0] at h6
      simpa using h6
    | succ k ih =>
      intro hk
      have h6 := ih (by omega)
      have h7 := h5 k hk
      have h8 := hdec k (by omega)
      rw [pow_succ', mul_assoc]
      have := mul_le_mul_of_nonneg_left h6 hq
      linarith
  intro k hk
  cases k with
  | zero =>
    rw [h3.state0]
    have : 1 ≤ b / a := (one_le_div ha).2 hb
    have h6 := mul_le_mul_of_nonneg_right this (hσ t0 x0)
    simpa using h6
  | succ k =>
    obtain ⟨v, h6⟩ := ((h3.plan k (by omega)).first_le (by omega) hl0 hφ (h3.input k (by omega))).2 hN
    rw [← h3.dyn k (by omega)] at h6
    have h7 := hdec k (by omega)
    have h8 := key k (by omega)
    have h9 := hl (t0 + k * dt + dt) (X (k + 1)) v
    have ht : t0 + k * dt + dt = t0 + ((k + 1 : ℕ) : ℝ) * dt := by push_cast; ring
    rw [← ht]
    have h10 := mul_le_mul_of_nonneg_left h8 hq
    rw [div_mul_eq_mul_div, div_mul_eq_mul_div, le_div_iff₀ ha, pow_succ']
    nlinarith

/-- **C120** Convex linear-quadratic problems without limits, zero initial regularisation, first step size 1, any positive number of
iterations, `k_rel_norm_thre ≤ 0`: no assumption on the outcome of the solves is needed. -/
theorem C120_linear_quadratic {p : LQProblem n md} (hL : L.Exact) (hp : p.Convex) (hdt : 0 < dt) (hN : 2 ≤ N) (hs : ShiftOk md dt N shift)
    (hc : ∀ k, RoundOk lim N (cfgs k)) (hw : ∀ k, (cfgs k).withConstraint = false) (hk : ∀ k, (cfgs k).kRelNormThre ≤ 0)
    (hα : ∀ k, ∃ as, (cfgs k).alphaList = 1 :: as) (hr : ∀ k, 0 ≤ (cfgs k).costUpdateRatioThre ∧ (cfgs k).costUpdateRatioThre < 1)
    (h0 : ∀ k, (cfgs k).initialLambda = 0) (hm : ∀ k, 1 ≤ (cfgs k).maxIter) (hlen : us.length = N) (hd : DimsOk md t0 dt us)
    {κ : (t : ℝ) → Vec n ℝ → Vec (md t) ℝ}
    (hκ : ∀ t x, p.callbacks.runningCost t x (κ t x) + p.callbacks.terminalCost (t + dt) (p.callbacks.stateEq t x (κ t x)) ≤
      p.callbacks.terminalCost t x)
    {σ : ℝ → Vec n ℝ → ℝ} (hσ : ∀ t x, 0 ≤ σ t x) {a b : ℝ} (ha : 0 < a) (hb : a ≤ b)
    (hl : ∀ t x u, a * σ t x ≤ p.callbacks.runningCost t x u) (hφ : ∀ t x, 0 ≤ p.callbacks.terminalCost t x)
    (hφb : ∀ t x, p.callbacks.terminalCost t x ≤ b * σ t x) :
    ∃ s D X U E, mpcLoop L p.callbacks lim dt cfgs scr shift endT o t0 x0 us = .ok s ∧ s.k = ⌈(endT - t0) / dt⌉₊ ∧
      Plans p.callbacks dt t0 x0 N s D X U E ∧ ∀ k ≤ s.k, σ (t0 + k * dt) (X k) ≤ b / a * (1 - a / b) ^ k * σ t0 x0 := by
  refine C120_stable hdt hN hs hc hlen hd hκ (fun k o t x w hw1 hw2 d hd => ?_) hσ ha hb hl hφ hφb
  obtain ⟨as, has⟩ := hα k
  exact (lq_solve_exact hL hp (hw k) (hc k).second (hk k) has (hr k).1 (hr k).2 (h0 k) (hm k) (by rw [(hc k).horizon, hw1]) hw2
    (by rw [hw1]; exact hd)).1

end Nmpc.DDP
