import Verif.DDP.Congr
import Verif.DDP.Reg
import Verif.DDP.Witness
import Verif.BoxQP.Generic
import Mathlib.Tactic.NormNum
import Mathlib.Tactic.GCongr

/-!
# C124: worst-case work of one call of `DDPSolver::solve`

* `C124_queries`: the result is determined by the callbacks at an explicitly bounded number of points (any arithmetic).
* `C124_backward_passes`: number of backward passes per iteration.
* `C124_boxqp`: number of iterations, factorisations and step size reductions of one call of `BoxQP::solve`.
-/

namespace Nmpc.DDP

set_option linter.unusedSectionVars false

variable {α : Type} [Add α] [Sub α] [Mul α] [Div α] [Neg α] [Zero α] [One α] [FOps α]

section Rel
variable {n : ℕ} {m : ℕ → ℕ} {L : LLT α} {cfg : Config α} {N : ℕ} {S S' : Stages n m α}

/-- Points at which callbacks are evaluated: `E` for `stateEq` and `runningCost` (step, state, input), `T` for `terminalCost`,
`D` for the derivatives of `stateEq` and `runningCost`, `TD` for the derivatives of `terminalCost`. -/
structure Points (n : ℕ) (m : ℕ → ℕ) (α : Type) where
  E : List (Σ i : ℕ, Vec n α × Vec (m i) α)
  T : List (Vec n α)
  D : List (Σ i : ℕ, Vec n α × Vec (m i) α)
  TD : List (Vec n α)

/-- Two problems agree at the points. -/
structure StagesAgreeAt (Q : Points n m α) (S S' : Stages n m α) : Prop where
  f : ∀ i x u, ⟨i, x, u⟩ ∈ Q.E → S.f i x u = S'.f i x u
  l : ∀ i x u, ⟨i, x, u⟩ ∈ Q.E → S.l i x u = S'.l i x u
  φ : ∀ x ∈ Q.T, S.φ x = S'.φ x
  df : ∀ i x u, ⟨i, x, u⟩ ∈ Q.D → S.df i x u = S'.df i x u
  df2 : ∀ i x u, ⟨i, x, u⟩ ∈ Q.D → S.df2 i x u = S'.df2 i x u
  dl : ∀ i x u, ⟨i, x, u⟩ ∈ Q.D → S.dl i x u = S'.dl i x u
  dφ : ∀ x ∈ Q.TD, S.dφ x = S'.dφ x

/-- All points belong to steps of the horizon and there are at most `a`, `b`, `c`, `d` of them. -/
structure Points.Bounded (N a b c d : ℕ) (Q : Points n m α) : Prop where
  E_step : ∀ p ∈ Q.E, p.1 < N
  D_step : ∀ p ∈ Q.D, p.1 < N
  E_len : Q.E.length ≤ a
  T_len : Q.T.length ≤ b
  D_len : Q.D.length ≤ c
  TD_len : Q.TD.length ≤ d

def Points.empty : Points n m α := ⟨[], [], [], []⟩

def Points.append (Q Q' : Points n m α) : Points n m α := ⟨Q.E ++ Q'.E, Q.T ++ Q'.T, Q.D ++ Q'.D, Q.TD ++ Q'.TD⟩

theorem Points.empty_bounded : (Points.empty : Points n m α).Bounded N 0 0 0 0 := by
  constructor <;> simp [Points.empty]

theorem Points.Bounded.append {Q Q' : Points n m α} {a b c d a' b' c' d' : ℕ} (h : Q.Bounded N a b c d)
    (h' : Q'.Bounded N a' b' c' d') : (Q.append Q').Bounded N (a + a') (b + b') (c + c') (d + d') := by
  have h1 := h.E_len; have h2 := h.T_len; have h3 := h.D_len; have h4 := h.TD_len
  have h1' := h'.E_len; have h2' := h'.T_len; have h3' := h'.D_len; have h4' := h'.TD_len
  constructor
  · intro p hp
    rcases List.mem_append.1 hp with hp | hp
    · exact h.E_step p hp
    · exact h'.E_step p hp
  · intro p hp
    rcases List.mem_append.1 hp with hp | hp
    · exact h.D_step p hp
    · exact h'.D_step p hp
  all_goals simp only [Points.append, List.length_append]; omega

theorem Points.Bounded.mono {Q : Points n m α} {a b c d a' b' c' d' : ℕ} (h : Q.Bounded N a b c d)
    (ha : a ≤ a') (hb : b ≤ b') (hc : c ≤ c') (hd : d ≤ d') : Q.Bounded N a' b' c' d' :=
  ⟨h.E_step, h.D_step, h.E_len.trans ha, h.T_len.trans hb, h.D_len.trans hc, h.TD_len.trans hd⟩

theorem StagesAgreeAt.left {Q Q' : Points n m α} (h : StagesAgreeAt (Q.append Q') S S') : StagesAgreeAt Q S S' :=
  ⟨fun i x u hp => h.f i x u (List.mem_append_left _ hp), fun i x u hp => h.l i x u (List.mem_append_left _ hp),
    fun x hp => h.φ x (List.mem_append_left _ hp), fun i x u hp => h.df i x u (List.mem_append_left _ hp),
    fun i x u hp => h.df2 i x u (List.mem_append_left _ hp), fun i x u hp => h.dl i x u (List.mem_append_left _ hp),
    fun x hp => h.dφ x (List.mem_append_left _ hp)⟩

theorem StagesAgreeAt.right {Q Q' : Points n m α} (h : StagesAgreeAt (Q.append Q') S S') : StagesAgreeAt Q' S S' :=
  ⟨fun i x u hp => h.f i x u (List.mem_append_right _ hp), fun i x u hp => h.l i x u (List.mem_append_right _ hp),
    fun x hp => h.φ x (List.mem_append_right _ hp), fun i x u hp => h.df i x u (List.mem_append_right _ hp),
    fun i x u hp => h.df2 i x u (List.mem_append_right _ hp), fun i x u hp => h.dl i x u (List.mem_append_right _ hp),
    fun x hp => h.dφ x (List.mem_append_right _ hp)⟩

theorem StagesAgree.refl (S : Stages n m α) : StagesAgree True N S S := by
  refine ⟨fun _ _ => rfl, fun _ _ => rfl, rfl, fun j _ x u b b' h => by rw [h trivial], fun j _ x u b b' h => by rw [h trivial],
    fun j _ x u b b' h => by rw [h trivial], fun x b b' h => by rw [h trivial], ?_⟩
  cases h : S.lim with
  | none => exact .inl ⟨rfl, rfl⟩
  | some g => exact .inr ⟨g, g, rfl, rfl, fun _ _ => rfl⟩

theorem CtrlAgree.trans {c1 c2 c3 : Ctrl n m α} (h : CtrlAgree N c1 c2) (h' : CtrlAgree N c2 c3) : CtrlAgree N c1 c3 :=
  ⟨fun j hj => (h.x j hj).trans (h'.x j hj), fun j hj => (h.u j hj).trans (h'.u j hj),
    fun j hj => (h.cost j hj).trans (h'.cost j hj)⟩

/-- Points of a rollout. -/
def ctrlPoints (N : ℕ) (c : Ctrl n m α) : Points n m α :=
  ⟨(List.range N).map fun i => ⟨i, c.x i, c.u i⟩, [c.x N], [], []⟩

/-- Points of the calculation of the derivatives. -/
def derivPoints (N : ℕ) (c : Ctrl n m α) : Points n m α :=
  ⟨[], [], (List.range N).map fun i => ⟨i, c.x i, c.u i⟩, [c.x N]⟩

theorem ctrlPoints_bounded (c : Ctrl n m α) : (ctrlPoints N c).Bounded N N 1 0 0 := by
  constructor <;> simp [ctrlPoints]

theorem derivPoints_bounded (c : Ctrl n m α) : (derivPoints N c).Bounded N 0 0 N 1 := by
  constructor <;> simp [derivPoints]

theorem rollout_at {x0 : Vec n α} {pol : (i : ℕ) → Vec n α → Vec (m i) α}
    (h : StagesAgreeAt (ctrlPoints N (rollout N S x0 pol)) S S') :
    CtrlAgree N (rollout N S x0 pol) (rollout N S' x0 pol) := by
  have hm : ∀ j < N, (⟨j, (rollX S x0 pol j, pol j (rollX S x0 pol j))⟩ : Σ i : ℕ, Vec n α × Vec (m i) α) ∈
      (ctrlPoints N (rollout N S x0 pol)).E := fun j hj => List.mem_map.2 ⟨j, List.mem_range.2 hj, rfl⟩
  have hx : ∀ j ≤ N, rollX S x0 pol j = rollX S' x0 pol j := by
    intro j
    induction j with
    | zero => intro _; rfl
    | succ j ih =>
      intro hj
      have h1 := h.f _ _ _ (hm j (by omega))
      simp only [rollX]
      rw [h1, ih (by omega)]
  refine ⟨hx, fun j hj => ?_, fun j hj => ?_⟩
  · simp only [rollout]
    rw [hx j hj.le]
  · simp only [rollout]
    rcases Nat.lt_or_eq_of_le hj with hlt | rfl
    · rw [if_pos hlt, if_pos hlt, h.l _ _ _ (hm j hlt), hx j hj]
    · rw [if_neg (lt_irrefl _), if_neg (lt_irrefl _),
        h.φ (rollX S x0 pol j) (List.mem_singleton.2 rfl), hx j le_rfl]

theorem forwardPass_at {c c' : Ctrl n m α} {g g' : Gains n m α} {a : α}
    (h : StagesAgreeAt (ctrlPoints N (forwardPass N S c g a)) S S') (hc : CtrlAgree N c c') (hg : GainsAgree 0 N g g') :
    CtrlAgree N (forwardPass N S c g a) (forwardPass N S' c' g' a) :=
  CtrlAgree.trans (rollout_at h) (forwardPass_agree (StagesAgree.refl S') hc hg a)

theorem calcDerivs_at {c c' : Ctrl n m α} {d d' : Derivs n m α} (h : StagesAgreeAt (derivPoints N c) S S')
    (hc : CtrlAgree N c c') (hd : DerivsAgree N d d') :
    DerivsAgree N (calcDerivs N cfg S c d) (calcDerivs N cfg S' c' d') := by
  have hm : ∀ j < N, (⟨j, (c.x j, c.u j)⟩ : Σ i : ℕ, Vec n α × Vec (m i) α) ∈ (derivPoints N c).D :=
    fun j hj => List.mem_map.2 ⟨j, List.mem_range.2 hj, rfl⟩
  have h1 : DerivsAgree N (calcDerivs N cfg S c d) (calcDerivs N cfg S' c d) := by
    refine ⟨fun j hj => ?_, fun j hj => ?_, ?_⟩
    · simp only [calcDerivs, if_pos hj]
      rw [h.df _ _ _ (hm j hj), h.df2 _ _ _ (hm j hj)]
    · simp only [calcDerivs, if_pos hj]
      rw [h.dl _ _ _ (hm j hj)]
    · simp only [calcDerivs]
      rw [h.dφ (c.x N) (List.mem_singleton.2 rfl)]
  have h2 := calcDerivs_agree (cfg := cfg) (StagesAgree.refl (N := N) S') hc (fun _ => hd)
  exact ⟨fun j hj => (h1.F j hj).trans (h2.F j hj), fun j hj => (h1.L j hj).trans (h2.L j hj), h1.V.trans h2.V⟩

/-- The backward passes use the problem only through the limits. -/
theorem bwLoop_lim (h : S.lim = S'.lim) (c : Ctrl n m α) (d : Derivs n m α) (lambda : α) (i : ℕ) (b : BwState n m α) :
    bwLoop L N cfg S c d lambda i b = bwLoop L N cfg S' c d lambda i b := by
  have hg : ∀ (g : Gains n m α) (i : ℕ) (Q : QData n (m i) α), stageGains L N cfg S c g i Q = stageGains L N cfg S' c g i Q := by
    intro g i Q
    unfold stageGains
    rw [h]
  have hs : ∀ (i : ℕ) (b : BwState n m α), bwStage L N cfg S c d lambda i b = bwStage L N cfg S' c d lambda i b := by
    intro i b
    unfold bwStage
    dsimp only
    rw [hg]
  induction i generalizing b with
  | zero => rfl
  | succ i ih =>
    unfold bwLoop
    rw [hs]
    congr 1
    funext q
    split
    · exact ih _
    · rfl

theorem bwSearch_lim (h : S.lim = S'.lim) (s : Solver n m α) : bwSearch L N cfg S s = bwSearch L N cfg S' s := by
  have hr : bwRound L N cfg S = bwRound L N cfg S' := by
    funext s
    unfold bwRound backwardPass
    rw [bwLoop_lim h]
  unfold bwSearch
  rw [hr]

/-- Points of a line search: all step sizes. -/
def searchPoints (N : ℕ) (S : Stages n m α) (s : Solver n m α) : List α → Points n m α
  | [] => .empty
  | a :: as => (ctrlPoints N (forwardPass N S s.ctrl s.gains a)).append (searchPoints N S s as)

theorem searchPoints_bounded (s : Solver n m α) (as : List α) :
    (searchPoints N S s as).Bounded N (N * as.length) as.length 0 0 := by
  induction as with
  | nil => exact Points.empty_bounded
  | cons a as ih =>
    refine ((ctrlPoints_bounded _).append ih).mono ?_ ?_ le_rfl le_rfl
    · simp only [List.length_cons]; rw [Nat.mul_add]; omega
    · simp only [List.length_cons]; omega

theorem lineSearch_at {s s' : Solver n m α} (hP : StagesAgreeAt (searchPoints N S s cfg.alphaList) S S')
    (h : CtrlAgree N s.ctrl s'.ctrl) (hg : GainsAgree 0 N s.gains s'.gains) (h0 : s.dV0 = s'.dV0) (h1 : s.dV1 = s'.dV1) :
    FwdAgree N (lineSearch N cfg S s) (lineSearch N cfg S' s') := by
  unfold lineSearch
  have key : ∀ (as : List α) (w w' : Fwd n m α), StagesAgreeAt (searchPoints N S s as) S S' → FwdAgree N w w' →
      FwdAgree N (tryAlphas N cfg S s as w) (tryAlphas N cfg S' s' as w') := by
    intro as
    induction as with
    | nil => exact fun _ _ _ h => h
    | cons a as ih =>
      intro w w' hP _
      have hc := forwardPass_at hP.left h hg
      have ha : FwdAgree N (tryAlpha N cfg S s a) (tryAlpha N cfg S' s' a) := by
        refine ⟨?_, rfl, ?_, ?_, ?_, hc⟩ <;> simp only [tryAlpha, totalCost_agree h, totalCost_agree hc, h0, h1]
      unfold tryAlphas
      dsimp only
      rw [ha.success]
      split
      · exact ha
      · exact ih _ _ hP.right ha
  exact key _ _ _ hP ⟨rfl, rfl, rfl, rfl, rfl, h⟩

/-- Points of one iteration. -/
def iterPoints (L : LLT α) (N : ℕ) (cfg : Config α) (S : Stages n m α) (iter : ℕ) (s : Solver n m α) : Points n m α :=
  (derivPoints N s.ctrl).append (searchPoints N S (bwSearch L N cfg S (startIter N cfg S iter s)).1 cfg.alphaList)

theorem iterPoints_bounded (iter : ℕ) (s : Solver n m α) :
    (iterPoints L N cfg S iter s).Bounded N (N * cfg.alphaList.length) cfg.alphaList.length N 1 :=
  ((derivPoints_bounded _).append (searchPoints_bounded _ _)).mono (by omega) (by omega) (by omega) (by omega)

theorem procOnce_at (iter : ℕ) {s s' : Solver n m α} (hP : StagesAgreeAt (iterPoints L N cfg S iter s) S S')
    (hlim : S.lim = S'.lim) (h : SolverAgree True N s s') :
    (procOnce L N cfg S iter s).2 = (procOnce L N cfg S' iter s').2 ∧
      SolverAgree True N (procOnce L N cfg S iter s).1 (procOnce L N cfg S' iter s').1 := by
  have h1 : BwSolver N (startIter N cfg S iter s) (startIter N cfg S' iter s') :=
    ⟨h.lambda, h.dlambda, h.ctrl, fun _ => calcDerivs_at hP.left h.ctrl (h.derivs trivial), by simp [startIter, h.trace]⟩
  have h2 := bwSearch_agree (L := L) (cfg := cfg) (StagesAgree.refl S) h1
  rw [bwSearch_lim hlim (startIter N cfg S' iter s')] at h2
  have hQ : StagesAgreeAt (searchPoints N S (bwSearch L N cfg S (startIter N cfg S iter s)).1 cfg.alphaList) S S' := hP.right
  unfold procOnce
  dsimp only
  rw [show ({ s with trace := s.trace ++ [Trace.new iter], derivs := calcDerivs N cfg S s.ctrl s.derivs } : Solver n m α)
    = startIter N cfg S iter s from rfl,
    show ({ s' with trace := s'.trace ++ [Trace.new iter], derivs := calcDerivs N cfg S' s'.ctrl s'.derivs } : Solver n m α)
    = startIter N cfg S' iter s' from rfl]
  generalize bwSearch L N cfg S (startIter N cfg S iter s) = r at h2 hQ
  generalize bwSearch L N cfg S' (startIter N cfg S' iter s') = r' at h2
  obtain ⟨s2, e⟩ := r
  obtain ⟨s2', e'⟩ := r'
  obtain ⟨h3, h4, h5⟩ := h2
  dsimp only at h3 h4 h5 hQ
  subst h3
  cases e with
  | ok v =>
    cases v with
    | false => exact ⟨rfl, h4⟩
    | true =>
      obtain ⟨h6, h7, h8⟩ := h5 rfl
      dsimp only
      rw [← kRelNorm_agree h4.ctrl h6, ← h4.lambda]
      split
      · exact ⟨rfl, rfl, h4.dlambda, h4.ctrl, h4.derivs, by rw [h.trace]⟩
      · have hw := lineSearch_at (cfg := cfg) hQ h4.ctrl h6 h7 h8
        rw [hw.alpha, hw.actual, hw.expected, hw.ratio, h.trace]
        exact finishStep_agree h4 hw
  | _ => exact ⟨rfl, h4⟩

theorem optLoop_at (r iter : ℕ) (s : Solver n m α) :
    ∃ (k : ℕ) (Q : Points n m α), (optLoop L N cfg S r iter s).1.trace.length = s.trace.length + k ∧
      Q.Bounded N (k * (N * cfg.alphaList.length)) (k * cfg.alphaList.length) (k * N) k ∧
      ∀ S' s', StagesAgreeAt Q S S' → S.lim = S'.lim → SolverAgree True N s s' →
        (optLoop L N cfg S r iter s).2 = (optLoop L N cfg S' r iter s').2 ∧
        SolverAgree True N (optLoop L N cfg S r iter s).1 (optLoop L N cfg S' r iter s').1 := by
  induction r generalizing iter s with
  | zero =>
    refine ⟨0, .empty, rfl, ?_, fun S' s' _ _ h => ⟨rfl, h⟩⟩
    simpa using Points.empty_bounded
  | succ r ih =>
    obtain ⟨e, he, _⟩ := procOnce_trace (L := L) (N := N) (cfg := cfg) (S := S) iter s
    have hlen : (procOnce L N cfg S iter s).1.trace.length = s.trace.length + 1 := by rw [he]; simp
    by_cases hgo : (procOnce L N cfg S iter s).2 = .ok 0
    · obtain ⟨k, Q, hk, hB, hQ⟩ := ih (iter + 1) (procOnce L N cfg S iter s).1
      have ho : ∀ (S : Stages n m α) (s : Solver n m α), (procOnce L N cfg S iter s).2 = .ok 0 →
          optLoop L N cfg S (r + 1) iter s = optLoop L N cfg S r (iter + 1) (procOnce L N cfg S iter s).1 := by
        intro S s hgo
        rw [optLoop]
        generalize procOnce L N cfg S iter s = q at hgo
        obtain ⟨t, e⟩ := q
        dsimp only at hgo
        subst hgo
        simp
      refine ⟨k + 1, (iterPoints L N cfg S iter s).append Q, ?_, ?_, ?_⟩
      · rw [ho S s hgo, hk, hlen]; omega
      · exact ((iterPoints_bounded iter s).append hB).mono (by rw [Nat.succ_mul]; omega) (by rw [Nat.succ_mul]; omega)
          (by rw [Nat.succ_mul]; omega) (by omega)
      · intro S' s' hS hl hs
        obtain ⟨h1, h2⟩ := procOnce_at iter hS.left hl hs
        rw [ho S s hgo, ho S' s' (h1 ▸ hgo)]
        exact hQ S' _ hS.right hl h2
    · have ho : ∀ (S : Stages n m α) (s : Solver n m α), (procOnce L N cfg S iter s).2 ≠ .ok 0 →
          optLoop L N cfg S (r + 1) iter s = procOnce L N cfg S iter s := by
        intro S s hgo
        rw [optLoop]
        generalize procOnce L N cfg S iter s = q at hgo
        obtain ⟨t, e⟩ := q
        dsimp only at hgo
        cases e with
        | ok v =>
          dsimp only
          rw [if_pos (fun hv => hgo (by rw [hv]))]
        | _ => rfl
      refine ⟨1, iterPoints L N cfg S iter s, ?_, ?_, ?_⟩
      · rw [ho S s hgo, hlen]
      · simpa using iterPoints_bounded (L := L) (N := N) (cfg := cfg) (S := S) iter s
      · intro S' s' hS hl hs
        have h12 := procOnce_at iter hS hl hs
        rw [ho S s hgo, ho S' s' (h12.1 ▸ hgo)]
        exact h12

end Rel

section Solve
variable {n : ℕ} {md : α → ℕ} {P : Callbacks n md} {L : LLT α} {cfg : Config α}
  {lim : Option ((t : α) → Vec (md t) α × Vec (md t) α)} {dt t0 : α} {o : Obj n α} {x0 : Vec n α}
  {us : List (Σ k : ℕ, Vec k α)} {scratch : Scratch n (fun i => md (timeAt t0 dt i)) α}

/-- `P` and `P'` give the same values at the listed points: `E` (step, state, input) for the dynamics and running cost, `T` for
the terminal cost, `D` for the derivatives of dynamics and running cost, `TD` for the derivatives of the terminal cost. -/
structure AgreeAt (P P' : Callbacks n md) (t0 dt : α) (N : ℕ) (E : List (Σ i : ℕ, Vec n α × Vec (md (timeAt t0 dt i)) α))
    (T : List (Vec n α)) (D : List (Σ i : ℕ, Vec n α × Vec (md (timeAt t0 dt i)) α)) (TD : List (Vec n α)) : Prop where
  stateEq : ∀ p ∈ E, P.stateEq (timeAt t0 dt p.1) p.2.1 p.2.2 = P'.stateEq (timeAt t0 dt p.1) p.2.1 p.2.2
  runningCost : ∀ p ∈ E, P.runningCost (timeAt t0 dt p.1) p.2.1 p.2.2 = P'.runningCost (timeAt t0 dt p.1) p.2.1 p.2.2
  terminalCost : ∀ x ∈ T, P.terminalCost (timeAt t0 dt N) x = P'.terminalCost (timeAt t0 dt N) x
  stateEqDeriv : ∀ p ∈ D, P.stateEqDeriv (timeAt t0 dt p.1) p.2.1 p.2.2 = P'.stateEqDeriv (timeAt t0 dt p.1) p.2.1 p.2.2
  stateEqDeriv2 : ∀ p ∈ D, P.stateEqDeriv2 (timeAt t0 dt p.1) p.2.1 p.2.2 = P'.stateEqDeriv2 (timeAt t0 dt p.1) p.2.1 p.2.2
  runningCostDeriv : ∀ p ∈ D,
    P.runningCostDeriv (timeAt t0 dt p.1) p.2.1 p.2.2 = P'.runningCostDeriv (timeAt t0 dt p.1) p.2.1 p.2.2
  terminalCostDeriv : ∀ x ∈ TD, P.terminalCostDeriv (timeAt t0 dt N) x = P'.terminalCostDeriv (timeAt t0 dt N) x

/-- **C124** Query complexity, in any arithmetic.  Let `N` be the horizon, `A` the number of step sizes in `alpha_list` and
`I` the number of iterations recorded in the trace, `I ≤ max_iter`.  The result (return value, control data and trace) is
determined by the values of `stateEq` and `runningCost` at `N (1 + I A)` points, of `terminalCost` at `1 + I A` points, and
of the derivatives at `N I` and `I` points; all of them on the time grid. -/
theorem C124_queries (hN : (us.length : ℤ) = cfg.horizon) (hd : DimsOk md t0 dt us) :
    ∃ (I : ℕ) (E D : List (Σ i : ℕ, Vec n α × Vec (md (timeAt t0 dt i)) α)) (T TD : List (Vec n α)),
      (solve L P lim dt cfg o t0 scratch x0 us).1.trace.length = I + 1 ∧ I ≤ cfg.maxIter.toNat ∧
      (∀ p ∈ E, p.1 < us.length) ∧ (∀ p ∈ D, p.1 < us.length) ∧
      E.length ≤ us.length * (1 + I * cfg.alphaList.length) ∧ T.length ≤ 1 + I * cfg.alphaList.length ∧
      D.length ≤ us.length * I ∧ TD.length ≤ I ∧
      ∀ (P' : Callbacks n md) (o' : Obj n α), AgreeAt P P' t0 dt us.length E T D TD →
        solve L P' lim dt cfg o' t0 scratch x0 us = solve L P lim dt cfg o t0 scratch x0 us := by
  obtain ⟨k, Q, hk, hB, hQ⟩ := optLoop_at (L := L) (N := us.length) (cfg := cfg) (S := stagesOf P lim t0 dt us.length)
    cfg.maxIter.toNat 1 (start P lim dt cfg t0 scratch x0 us)
  have hB' := (ctrlPoints_bounded (N := us.length) (start P lim dt cfg t0 scratch x0 us).ctrl).append hB
  have hI : k ≤ cfg.maxIter.toNat := by
    have : ∀ (r iter : ℕ) (s : Solver n (fun i => md (timeAt t0 dt i)) α),
        (optLoop L us.length cfg (stagesOf P lim t0 dt us.length) r iter s).1.trace.length ≤ s.trace.length + r := by
      intro r
      induction r with
      | zero => intro iter s; exact le_rfl
      | succ r ih =>
        intro iter s
        obtain ⟨e, he, _⟩ := procOnce_trace (L := L) (N := us.length) (cfg := cfg) (S := stagesOf P lim t0 dt us.length) iter s
        have hlen : (procOnce L us.length cfg (stagesOf P lim t0 dt us.length) iter s).1.trace.length = s.trace.length + 1 := by
          rw [he]; simp
        unfold optLoop
        generalize procOnce L us.length cfg (stagesOf P lim t0 dt us.length) iter s = q at hlen
        obtain ⟨t, e⟩ := q
        dsimp only at hlen
        cases e with
        | ok v =>
          dsimp only
          split
          · dsimp only; omega
          · have := ih (iter + 1) t; omega
        | _ => dsimp only; omega
    have := this cfg.maxIter.toNat 1 (start P lim dt cfg t0 scratch x0 us)
    omega
  refine ⟨k, ((ctrlPoints us.length (start P lim dt cfg t0 scratch x0 us).ctrl).append Q).E,
    ((ctrlPoints us.length (start P lim dt cfg t0 scratch x0 us).ctrl).append Q).D,
    ((ctrlPoints us.length (start P lim dt cfg t0 scratch x0 us).ctrl).append Q).T,
    ((ctrlPoints us.length (start P lim dt cfg t0 scratch x0 us).ctrl).append Q).TD, ?_, hI, hB'.E_step, hB'.D_step,
    hB'.E_len.trans (le_of_eq (by ring)), hB'.T_len, hB'.D_len.trans (le_of_eq (by ring)), hB'.TD_len.trans (by omega), ?_⟩
  · rw [solve_valid hN hd]
    show (final L P lim dt cfg t0 scratch x0 us).1.trace.length = k + 1
    rw [hk]
    show 1 + k = k + 1
    omega
  · intro P' o' hA
    have hS : StagesAgreeAt ((ctrlPoints us.length (start P lim dt cfg t0 scratch x0 us).ctrl).append Q)
        (stagesOf P lim t0 dt us.length) (stagesOf P' lim t0 dt us.length) :=
      ⟨fun i x u h => hA.stateEq _ h, fun i x u h => hA.runningCost _ h, hA.terminalCost, fun i x u h => hA.stateEqDeriv _ h,
        fun i x u h => hA.stateEqDeriv2 _ h, fun i x u h => hA.runningCostDeriv _ h, hA.terminalCostDeriv⟩
    have hc : CtrlAgree us.length (start P lim dt cfg t0 scratch x0 us).ctrl (start P' lim dt cfg t0 scratch x0 us).ctrl :=
      rollout_at hS.left
    obtain ⟨h1, h2⟩ := hQ (stagesOf P' lim t0 dt us.length) (start P' lim dt cfg t0 scratch x0 us) hS.right rfl
      ⟨rfl, rfl, hc, fun _ => ⟨fun _ _ => rfl, fun _ _ => rfl, rfl⟩, by
        show [_] = [_]
        rw [show totalCost us.length (rollout us.length (stagesOf P lim t0 dt us.length) x0 _) = _ from totalCost_agree hc]
        rfl⟩
    rw [solve_valid hN hd, solve_valid hN hd]
    refine Prod.ext ?_ (congrArg (Res.map _) h1.symm)
    show Obj.mk _ _ = Obj.mk _ _
    rw [out_agree h2.ctrl, h2.trace]

end Solve

/-- One step, one step size, one iteration: at most two evaluations of the dynamics, whatever else the problem does. -/
example : ∃ (E D : List (Σ _ : ℕ, Vec 1 XQ × Vec 1 XQ)) (T TD : List (Vec 1 XQ)),
    E.length ≤ 2 ∧ T.length ≤ 2 ∧ D.length ≤ 1 ∧ TD.length ≤ 1 ∧
    ∀ P' : Callbacks 1 (fun _ : XQ => 1), AgreeAt negZeroProblem P' (.fin 0) (.fin 1) 1 E T D TD →
      solve diagLLT P' none (.fin 1) negZeroConfig emptyObj (.fin 0) (zeroScratch (.fin 0) (.fin 1)) (fun _ => .fin 0)
        [⟨1, fun _ => .fin 0⟩] =
      solve diagLLT negZeroProblem none (.fin 1) negZeroConfig emptyObj (.fin 0) (zeroScratch (.fin 0) (.fin 1)) (fun _ => .fin 0)
        [⟨1, fun _ => .fin 0⟩] := by
  obtain ⟨I, E, D, T, TD, h1, h2, _, _, h3, h4, h5, h6, h7⟩ := C124_queries (L := diagLLT) (P := negZeroProblem) (lim := none)
    (dt := .fin 1) (cfg := negZeroConfig) (o := emptyObj) (t0 := .fin 0) (scratch := zeroScratch (.fin 0) (.fin 1))
    (x0 := fun _ => .fin 0) (us := [⟨1, fun _ => .fin 0⟩]) rfl (fun i hi => by
      have : i = 0 := by simpa using hi
      subst this; rfl)
  have hI : I ≤ 1 := h2
  have hA : negZeroConfig.alphaList.length = 1 := rfl
  rw [hA] at h3 h4
  simp only [List.length_singleton] at h3 h5
  exact ⟨E, D, T, TD, by omega, by omega, by omega, by omega, fun P' hP => h7 P' _ hP⟩

/-! ## Backward passes -/

section Backward
variable {n : ℕ} {m : ℕ → ℕ} {L : LLT ℝ} {cfg : Config ℝ} {N : ℕ} {S : Stages n m ℝ}

theorem bwRounds_count (hf : 1 < cfg.lambdaFactor) (hm : 0 < cfg.lambdaMin) {R : ℕ}
    (hR : cfg.lambdaMax < cfg.lambdaMin * cfg.lambdaFactor ^ (R * (R + 1) / 2 - 1)) (d j : ℕ) (hd : j + d = R) (hj : 1 ≤ j)
    (s : Solver n m ℝ) (h1 : cfg.lambdaMin * cfg.lambdaFactor ^ (j * (j + 1) / 2 - 1) ≤ s.lambda)
    (h2 : cfg.lambdaFactor ^ j ≤ s.dlambda) (h3 : s.lambda ≤ cfg.lambdaMax) :
    ∃ k, k < d ∧ ∃ t r, iterStep (bwRound L N cfg S) k s = some t ∧ bwRound L N cfg S t = .inr r ∧
      loopM (bwRound L N cfg S) s = some r := by
  induction d generalizing j s with
  | zero =>
    exfalso
    rw [add_zero] at hd
    subst hd
    linarith
  | succ d ih =>
    cases h : bwRound L N cfg S s with
    | inr r => exact ⟨0, by omega, s, r, rfl, h, loopM_inr h⟩
    | inl s' =>
      have := bwRound_out (L := L) (N := N) (cfg := cfg) (S := S) s
      rw [h] at this
      cases this with
      | again b hb hl =>
        rw [ltb_real_false] at hl
        have hf0 : 0 < cfg.lambdaFactor := by linarith
        have hdl : cfg.lambdaFactor ^ (j + 1) ≤ ((s.setBw b).increase cfg).dlambda := by
          simp only [Solver.increase, Solver.setBw, fmax_real]
          refine le_trans ?_ (le_max_left _ _)
          rw [pow_succ]
          exact mul_le_mul_of_nonneg_right h2 hf0.le
        have hpos : 0 < s.lambda := lt_of_lt_of_le (by positivity) h1
        have hla : cfg.lambdaMin * cfg.lambdaFactor ^ ((j + 1) * (j + 1 + 1) / 2 - 1) ≤ ((s.setBw b).increase cfg).lambda := by
          have he : (j + 1) * (j + 1 + 1) / 2 - 1 = (j * (j + 1) / 2 - 1) + (j + 1) := by
            have : (j + 1) * (j + 1 + 1) = j * (j + 1) + (j + 1) * 2 := by ring
            rw [this, Nat.add_mul_div_right _ _ (by norm_num)]
            have : 1 ≤ j * (j + 1) / 2 := by
              rw [Nat.le_div_iff_mul_le (by norm_num)]; nlinarith
            omega
          rw [he, pow_add, ← mul_assoc]
          have : s.lambda * ((s.setBw b).increase cfg).dlambda ≤ ((s.setBw b).increase cfg).lambda := by
            simp only [Solver.increase, Solver.setBw, fmax_real]
            exact le_max_left _ _
          refine le_trans ?_ this
          exact mul_le_mul h1 hdl (by positivity) hpos.le
        obtain ⟨k, hk, t, r, k1, k2, k3⟩ := ih (j + 1) (by omega) (by omega) _ hla hdl hl
        refine ⟨k + 1, by omega, t, r, ?_, k2, ?_⟩
        · simp only [iterStep, h]; exact k1
        · rw [loopM_inl h]; exact k3

/-- **C124** Number of backward passes: if `lambda_min * lambda_factor^(R (R + 1) / 2 - 1)` exceeds `lambda_max` with
`1 < lambda_factor` and `0 < lambda_min`, an iteration executes at most `R` backward passes (`k < R` failed ones and the last
one), whatever the problem and the state of the solver. -/
theorem C124_backward_passes (hf : 1 < cfg.lambdaFactor) (hm : 0 < cfg.lambdaMin) {R : ℕ} (hR1 : 1 ≤ R)
    (hR : cfg.lambdaMax < cfg.lambdaMin * cfg.lambdaFactor ^ (R * (R + 1) / 2 - 1)) (s : Solver n m ℝ) :
    ∃ k, k < R ∧ ∃ t, iterStep (bwRound L N cfg S) k s = some t ∧ bwRound L N cfg S t = .inr (bwSearch L N cfg S s) := by
  cases h : bwRound L N cfg S s with
  | inr r =>
    refine ⟨0, hR1, s, rfl, ?_⟩
    rw [h, bwSearch, loopM_inr h]
  | inl s' =>
    have := bwRound_out (L := L) (N := N) (cfg := cfg) (S := S) s
    rw [h] at this
    cases this with
    | again b hb hl =>
      rw [ltb_real_false] at hl
      have hdl : cfg.lambdaFactor ^ 1 ≤ ((s.setBw b).increase cfg).dlambda := by
        simp only [Solver.increase, fmax_real, pow_one]
        exact le_max_right _ _
      have hla : cfg.lambdaMin * cfg.lambdaFactor ^ (1 * (1 + 1) / 2 - 1) ≤ ((s.setBw b).increase cfg).lambda := by
        simpa using increase_min (cfg := cfg) (s.setBw b)
      obtain ⟨k, hk, t, r, k1, k2, k3⟩ := bwRounds_count (L := L) (N := N) (S := S) hf hm hR (R - 1) 1 (by omega) le_rfl _
        hla hdl hl
      refine ⟨k + 1, by omega, t, ?_, ?_⟩
      · simp only [iterStep, h]; exact k1
      · rw [k2, bwSearch, loopM_inl h, k3]

/-- **C124** With the default parameters at most 13 backward passes per iteration. -/
theorem C124_default_backward_passes (hf : cfg.lambdaFactor = 16 / 10) (hm : cfg.lambdaMin = 1 / 10 ^ 6)
    (hM : cfg.lambdaMax = 10 ^ 10) (s : Solver n m ℝ) :
    ∃ k, k < 13 ∧ ∃ t, iterStep (bwRound L N cfg S) k s = some t ∧ bwRound L N cfg S t = .inr (bwSearch L N cfg S s) := by
  refine C124_backward_passes (by rw [hf]; norm_num) (by rw [hm]; norm_num) (by norm_num) ?_ s
  rw [hf, hm, hM]
  norm_num

theorem iterStep_snoc {σ ρ : Type} {step : σ → σ ⊕ ρ} {k : ℕ} {s t t' : σ} (h : iterStep step k s = some t)
    (h' : step t = .inl t') : iterStep step (k + 1) s = some t' := by
  induction k generalizing s with
  | zero =>
    simp only [iterStep, Option.some.injEq] at h
    subst h
    simp only [iterStep, h']
  | succ k ih =>
    simp only [iterStep] at h ⊢
    cases hs : step s with
    | inr r => rw [hs] at h; cases h
    | inl s1 => rw [hs] at h; exact ih h

/-- **C124** The bound is attained: from `lambda = 0`, `dlambda = 1` (where repeated success leads), if all backward passes with
`lambda ≤ lambda_max` fail, exactly `R` backward passes are executed, where `R` is the least number allowed in
`C124_backward_passes`. -/
theorem C124_backward_passes_sharp (hf : 1 < cfg.lambdaFactor) (hm : 0 < cfg.lambdaMin) {R : ℕ} (hR1 : 1 ≤ R)
    (hR : cfg.lambdaMin * cfg.lambdaFactor ^ (R * (R + 1) / 2 - 1) ≤ cfg.lambdaMax) (s : Solver n m ℝ) (hl : s.lambda = 0)
    (hd : s.dlambda = 1)
    (hfail : ∀ t : Solver n m ℝ, SameFrame s t → t.lambda ≤ cfg.lambdaMax → ∃ b, backwardPass L N cfg S t = .ok (false, b)) :
    ∃ t, iterStep (bwRound L N cfg S) R s = some t := by
  have hf0 : 0 < cfg.lambdaFactor := by linarith
  have hmono : ∀ j ≤ R, cfg.lambdaMin * cfg.lambdaFactor ^ (j * (j + 1) / 2 - 1) ≤ cfg.lambdaMax := by
    intro j hj
    refine le_trans (mul_le_mul_of_nonneg_left (pow_le_pow_right₀ hf.le ?_) hm.le) hR
    exact Nat.sub_le_sub_right (Nat.div_le_div_right (Nat.mul_le_mul hj (by omega))) 1
  have hround : ∀ t : Solver n m ℝ, SameFrame s t → t.lambda ≤ cfg.lambdaMax → ∀ v, v ≤ cfg.lambdaMax →
      (∀ b, ((t.setBw b).increase cfg).lambda = v) → ∀ w, (∀ b, ((t.setBw b).increase cfg).dlambda = w) →
      ∃ t', bwRound L N cfg S t = .inl t' ∧ SameFrame s t' ∧ t'.lambda = v ∧ t'.dlambda = w := by
    intro t ht hle v hv h1 w h2
    obtain ⟨b, hb⟩ := hfail t ht hle
    refine ⟨(t.setBw b).increase cfg, ?_, ht.trans (increase_frame _ b), h1 b, h2 b⟩
    unfold bwRound
    rw [hb]
    dsimp only
    rw [if_neg]
    rw [Bool.not_eq_true, ltb_real_false, h1 b]
    exact hv
  have key : ∀ j, j + 1 ≤ R → ∃ t, iterStep (bwRound L N cfg S) (j + 1) s = some t ∧ SameFrame s t ∧
      t.lambda = cfg.lambdaMin * cfg.lambdaFactor ^ ((j + 1) * (j + 1 + 1) / 2 - 1) ∧ t.dlambda = cfg.lambdaFactor ^ (j + 1) := by
    intro j
    induction j with
    | zero =>
      intro hj
      obtain ⟨t', h1, h2, h3, h4⟩ := hround s (.refl s) (by rw [hl]; exact le_trans (by positivity) (hmono 1 hj)) cfg.lambdaMin
        (by simpa using hmono 1 hj)
        (fun b => by simp only [Solver.increase, Solver.setBw, fmax_real, hl, zero_mul]; exact max_eq_right hm.le)
        cfg.lambdaFactor (fun b => by simp only [Solver.increase, Solver.setBw, fmax_real, hd, one_mul, max_self])
      exact ⟨t', iterStep_snoc (t := s) rfl h1, h2, by simpa using h3, by simpa using h4⟩
    | succ j ih =>
      intro hj
      obtain ⟨t, h1, h2, h3, h4⟩ := ih (by omega)
      have hle1 : cfg.lambdaFactor ≤ t.dlambda * cfg.lambdaFactor := by
        rw [h4]; exact le_mul_of_one_le_left hf0.le (one_le_pow₀ hf.le)
      have he : (j + 1 + 1) * (j + 1 + 1 + 1) / 2 - 1 = ((j + 1) * (j + 1 + 1) / 2 - 1) + (j + 1 + 1) := by
        have : (j + 1 + 1) * (j + 1 + 1 + 1) = (j + 1) * (j + 1 + 1) + (j + 1 + 1) * 2 := by ring
        rw [this, Nat.add_mul_div_right _ _ (by norm_num)]
        have : 1 ≤ (j + 1) * (j + 1 + 1) / 2 := by
          rw [Nat.le_div_iff_mul_le (by norm_num)]; nlinarith
        omega
      have hv : t.lambda * (t.dlambda * cfg.lambdaFactor) =
          cfg.lambdaMin * cfg.lambdaFactor ^ ((j + 1 + 1) * (j + 1 + 1 + 1) / 2 - 1) := by
        rw [h3, h4, he]; ring
      have hge : cfg.lambdaMin ≤ cfg.lambdaMin * cfg.lambdaFactor ^ ((j + 1 + 1) * (j + 1 + 1 + 1) / 2 - 1) :=
        le_mul_of_one_le_right hm.le (one_le_pow₀ hf.le)
      obtain ⟨t', k1, k2, k3, k4⟩ := hround t h2 (by rw [h3]; exact hmono (j + 1) (by omega))
        (cfg.lambdaMin * cfg.lambdaFactor ^ ((j + 1 + 1) * (j + 1 + 1 + 1) / 2 - 1)) (hmono (j + 1 + 1) hj)
        (fun b => by
          simp only [Solver.increase, Solver.setBw, fmax_real]
          rw [max_eq_left hle1, hv, max_eq_left hge])
        (cfg.lambdaFactor ^ (j + 1 + 1)) (fun b => by
          simp only [Solver.increase, Solver.setBw, fmax_real]
          rw [max_eq_left hle1, h4]; ring)
      exact ⟨t', iterStep_snoc h1 k1, k2, k3, k4⟩
  obtain ⟨t, h1, _⟩ := key (R - 1) (by omega)
  rw [Nat.sub_add_cancel hR1] at h1
  exact ⟨t, h1⟩

/-- The factorisation of a negative number fails for all `lambda ≤ lambda_max`: 12 backward passes without success, so that the 13
of `C124_default_backward_passes` are executed. -/
example {cfg : Config ℝ} {S : Stages 1 (fun _ => 1) ℝ} (hf : cfg.lambdaFactor = 16 / 10) (hm : cfg.lambdaMin = 1 / 10 ^ 6)
    (hM : cfg.lambdaMax = 10 ^ 10) (h2 : cfg.useSecond = false) (hc : cfg.withConstraint = false) (L : LLT ℝ)
    (hL : ∀ M : Mat 1 1 ℝ, L.ok M = true → 0 < M 0 0) (hreg : cfg.regType = 1) (s : Solver 1 (fun _ => 1) ℝ) (hl : s.lambda = 0)
    (hd : s.dlambda = 1) (hF : (s.derivs.F 0).Fu = 0) (hLuu : (s.derivs.L 0).Luu 0 0 = -10 ^ 11) :
    ∃ t, iterStep (bwRound L 1 cfg S) 12 s = some t := by
  refine C124_backward_passes_sharp (by rw [hf]; norm_num) (by rw [hm]; norm_num) (by norm_num) ?_ s hl hd ?_
  · rw [hf, hm, hM]; norm_num
  · intro t ht hle
    have hdv : t.derivs = s.derivs := ht.2.1
    refine ⟨{ V := t.derivs.V, dV0 := 0, dV1 := 0, gains := t.gains }, ?_⟩
    have hq : L.ok (calcQ cfg t.lambda (s.derivs.F 0) (s.derivs.L 0) s.derivs.V).QuuF = false := by
      rw [← Bool.not_eq_true]
      intro h
      have h0 := hL _ h
      simp only [calcQ, hreg, hF, if_true, addDiag, Matrix.add_apply, hLuu] at h0
      have : FOps.matMul (FOps.matMul (0 : Mat 1 1 ℝ).transpose s.derivs.V.Vxx) (0 : Mat 1 1 ℝ) 0 0 = 0 := by
        simp [matMul_real]
      rw [if_neg (by decide), this] at h0
      linarith
    unfold backwardPass bwLoop bwStage stageGains unconstrainedGains
    simp [h2, hc, hdv, hq]

end Backward

end Nmpc.DDP

namespace Nmpc.BoxQP

section
set_option linter.unusedSectionVars false
variable {α : Type} [Add α] [Sub α] [Mul α] [Div α] [Neg α] [Zero α] [One α] [FOps α]
variable {n : ℕ} {L : LLT α} {c : Config α} {a : Args n α} {o : Obj n α} {r : Result n α}

theorem lineSearch_count {k : ℕ} (hk : ltb (stepSeq c (k + 1)) c.minStep = true) {x dir : Vec n α} {oldObj sdg : α} {rv : ℤ}
    {ls : LS n α} (h : lineSearch c a x dir oldObj sdg rv = some ls) : ls.stepNum ≤ k + 1 := by
  refine loopM_invariant (fun s : LS n α => s.step = stepSeq c s.stepNum ∧ s.stepNum ≤ k) (fun s => s.stepNum ≤ k + 1) ?_ ?_
    ⟨rfl, Nat.zero_le _⟩ h
  · intro s s' hs h
    unfold lsStep at h
    split at h
    · dsimp only at h
      split at h
      · cases h
      · rename_i hlt
        cases h
        have h1 : s.step * c.stepFactor = stepSeq c (s.stepNum + 1) := by rw [hs.1]; rfl
        have hne : s.stepNum ≠ k := by
          rintro rfl
          rw [h1] at hlt
          exact hlt hk
        have := hs.2
        exact ⟨h1, show s.stepNum + 1 ≤ k by omega⟩
    · cases h
  · intro s s' hs h
    unfold lsStep at h
    split at h
    · dsimp only at h
      split at h
      · cases h; show s.stepNum + 1 ≤ k + 1; have := hs.2; omega
      · cases h
    · cases h; have := hs.2; omega

/-- **C124** Work of one call of `BoxQP::solve`, in any arithmetic: if `k + 1` reductions bring the step size below
`min_step` and `max_iter ≥ 1`, the call returns normally after at most `max_iter` iterations, each of which (as recorded in
the trace) reduced the step size at most `k + 1` times. -/
theorem C124_boxqp (hmax : 1 ≤ c.maxIter) {k : ℕ} (hk : ltb (stepSeq c (k + 1)) c.minStep = true) :
    ∃ r, solve L c o a = .ok r ∧ r.obj.trace.length = r.iter + 1 ∧ (r.iter : ℤ) ≤ c.maxIter ∧
      ∀ e ∈ r.obj.trace, e.stepNum ≤ k + 1 := by
  obtain ⟨r, hr, hit⟩ := C03_terminates (L := L) (o := o) (a := a) hmax ⟨k, hk⟩
  refine ⟨r, hr, ?_, hit, ?_⟩
  · have := congrArg List.length (C03_trace hr).2
    simpa using this
  · obtain ⟨s, hs, rfl⟩ := solve_rule (fun s : State n α => ∀ e ∈ s.trace, e.stepNum ≤ k + 1)
      (fun s => ∀ e ∈ s.trace, e.stepNum ≤ k + 1) (by simp [initState, Trace.new])
      (fun s s' hs h => by
        have := mainStep_out L c a s
        rw [h] at this
        cases this with
        | next _ _ _ _ _ _ ls hl _ tr htr htr' =>
          intro e he
          rcases List.mem_append.1 he with he | he
          · exact hs e he
          · rw [List.mem_singleton.1 he, htr'.2.2]; exact lineSearch_count hk hl)
      (fun s s' hs h => by
        have := mainStep_out L c a s
        rw [h] at this
        cases this with
        | maxIter _ _ _ _ _ _ ls hl _ tr htr htr' =>
          intro e he
          rcases List.mem_append.1 he with he | he
          · exact hs e he
          · rw [List.mem_singleton.1 he, htr'.2.2]; exact lineSearch_count hk hl
        | _ =>
          intro e he
          rcases List.mem_append.1 he with he | he
          · exact hs e he
          · rw [List.mem_singleton.1 he]; simp [Trace.new]) hr
    exact hs

end

/-- **C124** With the default parameters and exact arithmetic: at most 500 iterations with at most 100 reductions each. -/
theorem C124_boxqp_default {n : ℕ} {L : LLT ℝ} {a : Args n ℝ} {o : Obj n ℝ} :
    ∃ r, solve L Config.default o a = .ok r ∧ r.obj.trace.length = r.iter + 1 ∧ r.iter ≤ 500 ∧
      ∀ e ∈ r.obj.trace, e.stepNum ≤ 100 := by
  have hs : ∀ k, stepSeq (Config.default : Config ℝ) k = (6 / 10) ^ k := by
    intro k
    induction k with
    | zero => simp [stepSeq]
    | succ k ih => rw [stepSeq, ih, pow_succ]; simp [Config.default, lit_real]
  obtain ⟨r, h1, h2, h3, h4⟩ := C124_boxqp (L := L) (c := (Config.default : Config ℝ)) (a := a) (o := o) (by norm_num [Config.default])
    (k := 99) (by rw [hs, ltb_real]; norm_num [Config.default, lit_real])
  refine ⟨r, h1, h2, ?_, h4⟩
  have h5 : (r.iter : ℤ) ≤ 500 := h3
  omega

end Nmpc.BoxQP
