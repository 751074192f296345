import Verif.FMPC.Update
import Verif.FMPC.Congr
import Verif.FMPC.Examples
import Verif.Float.Fmpc
import Mathlib.Tactic.Ring

/-!
# C129: worst-case work of one call of `FmpcSolver::solve`

`C129_queries`: the result is determined by the callbacks and the factorisations at an explicitly bounded number of points.
-/

namespace Nmpc.FMPC

open DDP (FDeriv LDeriv VDeriv timeAt)

set_option linter.unusedSectionVars false

variable {α : Type} [Add α] [Sub α] [Mul α] [Div α] [Neg α] [Zero α] [One α] [FOps α]

section Rel
variable {n : ℕ} {m p : ℕ → ℕ} {L L' : GainSolver α} {cfg : Config α} {N : ℕ} {S S' : Stages n m p α} {x0 : Vec n α}

/-- Points of evaluation: `E` for `stateEq`, `runningCost` and `ineqConst` (step, state, input), `T` for `terminalCost`, `D` for
the derivatives of the callbacks in `E`, `TD` for the derivatives of `terminalCost`, `M` for the factorised matrices. -/
structure Points (n : ℕ) (m : ℕ → ℕ) (α : Type) where
  E : List (Σ i : ℕ, Vec n α × Vec (m i) α)
  T : List (Vec n α)
  D : List (Σ i : ℕ, Vec n α × Vec (m i) α)
  TD : List (Vec n α)
  M : List (Σ k : ℕ, Mat k k α)

/-- Two problems and two gain solvers agree at the points. -/
structure StagesAgreeAt (Q : Points n m α) (S S' : Stages n m p α) (L L' : GainSolver α) : Prop where
  dt : S.dt = S'.dt
  f : ∀ i x u, ⟨i, x, u⟩ ∈ Q.E → S.f i x u = S'.f i x u
  l : ∀ i x u, ⟨i, x, u⟩ ∈ Q.E → S.l i x u = S'.l i x u
  g : ∀ i x u, ⟨i, x, u⟩ ∈ Q.E → S.g i x u = S'.g i x u
  φ : ∀ x ∈ Q.T, S.φ x = S'.φ x
  df : ∀ i x u, ⟨i, x, u⟩ ∈ Q.D → S.df i x u = S'.df i x u
  dg : ∀ i x u, ⟨i, x, u⟩ ∈ Q.D → S.dg i x u = S'.dg i x u
  dl : ∀ i x u, ⟨i, x, u⟩ ∈ Q.D → S.dl i x u = S'.dl i x u
  dφ : ∀ x ∈ Q.TD, S.dφ x = S'.dφ x
  ok : ∀ k (A : Mat k k α), ⟨k, A⟩ ∈ Q.M → L.ok A = L'.ok A
  ldlt : ∀ k (A : Mat k k α), ⟨k, A⟩ ∈ Q.M → L.ldlt A = L'.ldlt A
  lu : ∀ k (A : Mat k k α), ⟨k, A⟩ ∈ Q.M → L.lu A = L'.lu A

/-- All points belong to steps of the horizon and there are at most `a`, `b`, `c`, `d`, `e` of them. -/
structure Points.Bounded (N a b c d e : ℕ) (Q : Points n m α) : Prop where
  E_step : ∀ p ∈ Q.E, p.1 < N
  D_step : ∀ p ∈ Q.D, p.1 < N
  E_len : Q.E.length ≤ a
  T_len : Q.T.length ≤ b
  D_len : Q.D.length ≤ c
  TD_len : Q.TD.length ≤ d
  M_len : Q.M.length ≤ e

def Points.empty : Points n m α := ⟨[], [], [], [], []⟩

def Points.append (Q Q' : Points n m α) : Points n m α :=
  ⟨Q.E ++ Q'.E, Q.T ++ Q'.T, Q.D ++ Q'.D, Q.TD ++ Q'.TD, Q.M ++ Q'.M⟩

theorem Points.empty_bounded : (Points.empty : Points n m α).Bounded N 0 0 0 0 0 := by
  constructor <;> simp [Points.empty]

theorem Points.Bounded.append {Q Q' : Points n m α} {a b c d e a' b' c' d' e' : ℕ} (h : Q.Bounded N a b c d e)
    (h' : Q'.Bounded N a' b' c' d' e') :
    (Q.append Q').Bounded N (a + a') (b + b') (c + c') (d + d') (e + e') := by
  have h1 := h.E_len; have h2 := h.T_len; have h3 := h.D_len; have h4 := h.TD_len; have h5 := h.M_len
  have h1' := h'.E_len; have h2' := h'.T_len; have h3' := h'.D_len; have h4' := h'.TD_len; have h5' := h'.M_len
  constructor
  · intro p hp
    rcases List.mem_append.1 hp with hp | hp
    · exact h.E_step p hp
    · exact h'.E_step p hp
  · intro p hp
    rcases List.mem_append.1 hp with hp | hp
    · exact h.D_step p hp
    · exact h'.D_step p hp
  all_goals simp only [Points.append, List.length_append]; omega

theorem Points.Bounded.mono {Q : Points n m α} {a b c d e a' b' c' d' e' : ℕ} (h : Q.Bounded N a b c d e)
    (ha : a ≤ a') (hb : b ≤ b') (hc : c ≤ c') (hd : d ≤ d') (he : e ≤ e') : Q.Bounded N a' b' c' d' e' :=
  ⟨h.E_step, h.D_step, h.E_len.trans ha, h.T_len.trans hb, h.D_len.trans hc, h.TD_len.trans hd, h.M_len.trans he⟩

theorem StagesAgreeAt.left {Q Q' : Points n m α} (h : StagesAgreeAt (Q.append Q') S S' L L') :
    StagesAgreeAt Q S S' L L' :=
  ⟨h.dt, fun i x u hp => h.f i x u (List.mem_append_left _ hp), fun i x u hp => h.l i x u (List.mem_append_left _ hp),
    fun i x u hp => h.g i x u (List.mem_append_left _ hp),
    fun x hp => h.φ x (List.mem_append_left _ hp), fun i x u hp => h.df i x u (List.mem_append_left _ hp),
    fun i x u hp => h.dg i x u (List.mem_append_left _ hp), fun i x u hp => h.dl i x u (List.mem_append_left _ hp),
    fun x hp => h.dφ x (List.mem_append_left _ hp), fun k A hp => h.ok k A (List.mem_append_left _ hp),
    fun k A hp => h.ldlt k A (List.mem_append_left _ hp), fun k A hp => h.lu k A (List.mem_append_left _ hp)⟩

theorem StagesAgreeAt.right {Q Q' : Points n m α} (h : StagesAgreeAt (Q.append Q') S S' L L') :
    StagesAgreeAt Q' S S' L L' :=
  ⟨h.dt, fun i x u hp => h.f i x u (List.mem_append_right _ hp), fun i x u hp => h.l i x u (List.mem_append_right _ hp),
    fun i x u hp => h.g i x u (List.mem_append_right _ hp),
    fun x hp => h.φ x (List.mem_append_right _ hp), fun i x u hp => h.df i x u (List.mem_append_right _ hp),
    fun i x u hp => h.dg i x u (List.mem_append_right _ hp), fun i x u hp => h.dl i x u (List.mem_append_right _ hp),
    fun x hp => h.dφ x (List.mem_append_right _ hp), fun k A hp => h.ok k A (List.mem_append_right _ hp),
    fun k A hp => h.ldlt k A (List.mem_append_right _ hp), fun k A hp => h.lu k A (List.mem_append_right _ hp)⟩

/-- The points of one iterate. -/
def stepPoints (N : ℕ) (v : Var n m p α) : List (Σ i : ℕ, Vec n α × Vec (m i) α) :=
  (List.range N).map fun i => ⟨i, v.x i, v.u i⟩

theorem mem_stepPoints (v : Var n m p α) {i : ℕ} (hi : i < N) :
    (⟨i, (v.x i, v.u i)⟩ : Σ i : ℕ, Vec n α × Vec (m i) α) ∈ stepPoints N v := List.mem_map.2 ⟨i, List.mem_range.2 hi, rfl⟩

/-- Values and derivatives at the current iterate. -/
def hereP (N : ℕ) (v : Var n m p α) : Points n m α := ⟨stepPoints N v, [], stepPoints N v, [v.x N], []⟩

theorem hereP_bounded (v : Var n m p α) : (hereP N v).Bounded N N 0 N 1 0 := by
  constructor <;> simp [hereP, stepPoints]

/-- Values of the merit function. -/
def meritP (N : ℕ) (v : Var n m p α) : Points n m α := ⟨stepPoints N v, [v.x N], [], [], []⟩

theorem meritP_bounded (v : Var n m p α) : (meritP N v).Bounded N N 1 0 0 0 := by
  constructor <;> simp [meritP, stepPoints]

theorem prepare_at {w : Solver n m p α} (h : StagesAgreeAt (hereP N w.var) S S' L L') :
    prepare N cfg S w = prepare N cfg S' w := by
  have h1 : (fun i => if i < N then calcCoeff S w.var i (w.coeff i) else w.coeff i) =
      fun i => if i < N then calcCoeff S' w.var i (w.coeff i) else w.coeff i := by
    funext i
    split
    · rename_i hi
      have hm : (⟨i, (w.var.x i, w.var.u i)⟩ : Σ i : ℕ, Vec n α × Vec (m i) α) ∈ stepPoints N w.var := mem_stepPoints _ hi
      unfold calcCoeff
      rw [h.df _ _ _ hm, h.dg _ _ _ hm, h.dl _ _ _ hm, h.f _ _ _ hm, h.g _ _ _ hm, h.dt]
    · rfl
  have h2 : calcTerm N S w.var w.term = calcTerm N S' w.var w.term := by
    unfold calcTerm
    rw [h.dφ (w.var.x N) (List.mem_singleton.2 rfl)]
  unfold prepare
  rw [h1, h2]

theorem bwLoop_at (dt eps : α) (v : Var n m p α) (i : ℕ) (s : Vec n α) (P : Mat n n α)
    (co : (i : ℕ) → Coeff n (m i) (p i) α) :
    ∃ Ms : List (Σ k : ℕ, Mat k k α), Ms.length ≤ i ∧ ∀ L' : GainSolver α,
      (∀ k (A : Mat k k α), ⟨k, A⟩ ∈ Ms → L.ok A = L'.ok A ∧ L.ldlt A = L'.ldlt A ∧ L.lu A = L'.lu A) →
      bwLoop L cfg dt eps v i s P co = bwLoop L' cfg dt eps v i s P co := by
  induction i generalizing s P co with
  | zero => exact ⟨[], le_rfl, fun _ _ => rfl⟩
  | succ i ih =>
    have hs : ∀ L' : GainSolver α, (∀ k (A : Mat k k α), (⟨k, A⟩ : Σ k : ℕ, Mat k k α) ∈
        [⟨m i, (gainData dt eps (v.s i) (v.nu i) (co i) P).G⟩] → L.ok A = L'.ok A ∧ L.ldlt A = L'.ldlt A ∧ L.lu A = L'.lu A) →
        bwStage L cfg dt eps (v.s i) (v.nu i) (co i) s P = bwStage L' cfg dt eps (v.s i) (v.nu i) (co i) s P := by
      intro L' hL
      obtain ⟨h1, h2, h3⟩ := hL _ _ (List.mem_singleton.2 rfl)
      unfold bwStage solveGains
      dsimp only
      rw [h1, h2, h3]
    cases hc : bwStage L cfg dt eps (v.s i) (v.nu i) (co i) s P with
    | none =>
      refine ⟨[⟨m i, (gainData dt eps (v.s i) (v.nu i) (co i) P).G⟩], by simp, fun L' hL => ?_⟩
      unfold bwLoop
      rw [← hs L' hL, hc]
    | some c =>
      obtain ⟨Ms, hM, hQ⟩ := ih c.s c.P (Function.update co i c)
      refine ⟨⟨m i, (gainData dt eps (v.s i) (v.nu i) (co i) P).G⟩ :: Ms, by simpa using hM, fun L' hL => ?_⟩
      unfold bwLoop
      rw [← hs L' (fun k A h => hL k A (by rw [List.mem_singleton.1 h]; exact List.mem_cons_self)), hc]
      exact hQ L' fun k A h => hL k A (List.mem_cons_of_mem _ h)

theorem backwardPass_at (w : Solver n m p α) :
    ∃ Ms : List (Σ k : ℕ, Mat k k α), Ms.length ≤ N ∧ ∀ (L' : GainSolver α) (S' : Stages n m p α), S.dt = S'.dt →
      (∀ k (A : Mat k k α), ⟨k, A⟩ ∈ Ms → L.ok A = L'.ok A ∧ L.ldlt A = L'.ldlt A ∧ L.lu A = L'.lu A) →
      backwardPass L N cfg S w = backwardPass L' N cfg S' w := by
  obtain ⟨Ms, h1, h2⟩ := bwLoop_at (L := L) (cfg := cfg) S.dt w.eps w.var N (smulv (-1) w.term.Lxbar) w.term.V.Vxx w.coeff
  refine ⟨Ms, h1, fun L' S' hd hL => ?_⟩
  unfold backwardPass
  dsimp only
  rw [← hd, h2 L' hL]

theorem merit_at {v : Var n m p α} (eps : α) (h : StagesAgreeAt (meritP N v) S S' L L') :
    meritObj N S eps v = meritObj N S' eps v ∧ meritConst N S x0 v = meritConst N S' x0 v := by
  constructor
  · unfold meritObj
    rw [h.φ (v.x N) (List.mem_singleton.2 rfl)]
    congr 1
    apply forUp_congr
    intro i hi b
    rw [h.l _ _ _ (mem_stepPoints v hi), h.dt]
  · unfold meritConst
    apply forUp_congr
    intro i hi b
    rw [h.f _ _ _ (mem_stepPoints v hi), h.g _ _ _ (mem_stepPoints v hi)]

theorem setupMerit_at {w : Solver n m p α} (h : StagesAgreeAt (meritP N w.var) S S' L L') :
    setupMerit N cfg S x0 w = setupMerit N cfg S' x0 w := by
  have h1 : meritDerivObj N S w = meritDerivObj N S' w := by
    unfold meritDerivObj
    rw [h.dt]
  have h2 : meritDerivConst N S x0 w = meritDerivConst N S' x0 w := by
    unfold meritDerivConst
    apply forUp_congr
    intro i hi b
    dsimp only
    rw [h.f _ _ _ (mem_stepPoints w.var hi), h.g _ _ _ (mem_stepPoints w.var hi)]
  unfold setupMerit
  dsimp only
  rw [h1, h2, (merit_at (x0 := x0) w.eps h).1, (merit_at (x0 := x0) w.eps h).2]

/-- The backtracking loop tests at most the first `K` halved step lengths. -/
theorem lsLoop_agree {acc acc' : α → Bool} (K : ℕ) (a : α) (hK : ltb (halve^[K] a) (lit (1 / 10 ^ 10)) = true)
    (h : ∀ k < K, acc (halve^[k] a) = acc' (halve^[k] a)) : loopM (lsStep acc) a = loopM (lsStep acc') a := by
  induction K generalizing a with
  | zero =>
    have : ∀ acc : α → Bool, loopM (lsStep acc) a = some a :=
      fun acc => loopM_inr (by unfold lsStep; exact if_pos hK)
    rw [this, this]
  | succ K ih =>
    have h0 := h 0 (by omega)
    simp only [Function.iterate_zero, id_eq] at h0
    by_cases h1 : ltb a (lit (1 / 10 ^ 10)) = true
    · have : ∀ acc : α → Bool, loopM (lsStep acc) a = some a :=
        fun acc => loopM_inr (by unfold lsStep; exact if_pos h1)
      rw [this, this]
    by_cases h2 : acc a = true
    · have : ∀ acc : α → Bool, acc a = true → loopM (lsStep acc) a = some a :=
        fun acc h2 => loopM_inr (by unfold lsStep; rw [if_neg h1, if_pos h2])
      rw [this _ h2, this _ (h0 ▸ h2)]
    · have : ∀ acc : α → Bool, ¬ acc a = true → loopM (lsStep acc) a = loopM (lsStep acc) (halve a) :=
        fun acc h2 => loopM_inl (by unfold lsStep; rw [if_neg h1, if_neg h2]; rfl)
      rw [this _ h2, this _ (h0 ▸ h2)]
      exact ih (halve a) (by rw [← Function.iterate_succ_apply]; exact hK)
        fun k hk => by rw [← Function.iterate_succ_apply]; exact h (k + 1) (by omega)

/-- Merit function points of the first `K` step lengths. -/
def trialP (N : ℕ) (v d : Var n m p α) : ℕ → α → Points n m α
  | 0, _ => .empty
  | K + 1, a => (meritP N (lsVar v d a)).append (trialP N v d K (halve a))

theorem trialP_bounded (v d : Var n m p α) (K : ℕ) (a : α) : (trialP N v d K a).Bounded N (N * K) K 0 0 0 := by
  induction K generalizing a with
  | zero => exact Points.empty_bounded
  | succ K ih => exact ((meritP_bounded _).append (ih _)).mono (by rw [Nat.mul_add]; omega) (by omega) le_rfl le_rfl le_rfl

theorem trialP_at {v d : Var n m p α} {K : ℕ} {a : α} (h : StagesAgreeAt (trialP N v d K a) S S' L L') (k : ℕ) (hk : k < K) :
    StagesAgreeAt (meritP N (lsVar v d (halve^[k] a))) S S' L L' := by
  induction K generalizing a k with
  | zero => omega
  | succ K ih =>
    cases k with
    | zero => exact h.left
    | succ k => rw [Function.iterate_succ_apply]; exact ih h.right k (by omega)

/-- Number of step lengths tested by the line search of one iteration. -/
def trials (cfg : Config α) : ℕ := if cfg.enableLineSearch then 34 else 0

/-- Number of evaluations of the terminal cost in one iteration. -/
def terminalEvals (cfg : Config α) : ℕ := if cfg.enableLineSearch then 35 else 0

/-- Points of one line search besides the current iterate. -/
theorem updateVariables_at (hH : cfg.enableLineSearch = true → HalvingLaw α) (w : Solver n m p α) :
    ∃ Q : Points n m α, Q.Bounded N (N * trials cfg) (terminalEvals cfg) 0 0 0 ∧ ∀ S' L',
      StagesAgreeAt (hereP N w.var) S S' L L' → StagesAgreeAt Q S S' L L' →
        updateVariables N cfg S x0 w = updateVariables N cfg S' x0 w := by
  cases hls : cfg.enableLineSearch with
  | false =>
    refine ⟨.empty, by simpa [trials, terminalEvals, hls] using Points.empty_bounded, fun S' L' _ _ => ?_⟩
    unfold updateVariables lineSearch
    rw [hls]
    rfl
  | true =>
    have hH := hH hls
    refine ⟨(⟨[], [w.var.x N], [], [], []⟩ : Points n m α).append
      (trialP N w.var w.delta 34 (alphaMax N w.var.s w.delta.s)), ?_, ?_⟩
    · have h1 : (⟨[], [w.var.x N], [], [], []⟩ : Points n m α).Bounded N 0 1 0 0 0 := by constructor <;> simp
      exact (h1.append (trialP_bounded _ _ _ _)).mono (by simp [trials, hls]) (by simp [terminalEvals, hls])
        le_rfl le_rfl le_rfl
    · intro S' L' h1 h2
      have hm : StagesAgreeAt (meritP N w.var) S S' L L' :=
        ⟨h1.dt, h1.f, h1.l, h1.g, h2.left.φ, (fun _ _ _ h => nomatch h), (fun _ _ _ h => nomatch h),
          (fun _ _ _ h => nomatch h), (fun _ h => nomatch h), (fun _ _ h => nomatch h), (fun _ _ h => nomatch h),
          (fun _ _ h => nomatch h)⟩
      unfold updateVariables
      dsimp only
      split
      · rename_i hok
        have hl : lineSearch N cfg S x0 w (alphaMax N w.var.s w.delta.s) =
            lineSearch N cfg S' x0 w (alphaMax N w.var.s w.delta.s) := by
          unfold lineSearch
          rw [setupMerit_at hm]
          congr 2
          funext mt
          dsimp only
          have : loopM (lsStep (armijo N S x0 { w with merit := mt })) (alphaMax N w.var.s w.delta.s) =
              loopM (lsStep (armijo N S' x0 { w with merit := mt })) (alphaMax N w.var.s w.delta.s) := by
            refine lsLoop_agree 34 _ ?_ fun k hk => ?_
            · simp only [alphaOk, Bool.and_eq_true] at hok
              exact hH _ hok.1.1.1 hok.1.1.2
            · obtain ⟨e1, e2⟩ := merit_at (x0 := x0) w.eps (trialP_at h2.right k hk)
              unfold armijo calcMerit
              dsimp only
              rw [e1, e2]
          rw [this]
        rw [hl]
      · rfl

theorem procOnce_at (hH : cfg.enableLineSearch = true → HalvingLaw α) (iter : ℕ) (w : Solver n m p α) :
    ∃ Q : Points n m α, Q.Bounded N (N * (1 + trials cfg)) (terminalEvals cfg) N 1 N ∧ ∀ S' L',
      StagesAgreeAt Q S S' L L' → procOnce L N cfg S x0 iter w = procOnce L' N cfg S' x0 iter w := by
  rcases prepare_cases (N := N) (cfg := cfg) (S := S) w with h | ⟨e, he, h⟩
  · refine ⟨hereP N w.var, (hereP_bounded _).mono (by rw [Nat.mul_add]; omega) (by omega) le_rfl le_rfl (by omega),
      fun S' L' hS => ?_⟩
    unfold procOnce
    rw [← prepare_at hS, h]
    rfl
  · obtain ⟨Ms, hM, hb⟩ := backwardPass_at (L := L) (N := N) (cfg := cfg) (S := S) (traced N x0 iter (prepared N S w e))
    obtain ⟨Q, hQ, hu⟩ := updateVariables_at (L := L) (N := N) (S := S) (x0 := x0) hH
      (forwardPass N cfg x0 (backwardPass L N cfg S (traced N x0 iter (prepared N S w e))).2).2
    have hMB : (⟨[], [], [], [], Ms⟩ : Points n m α).Bounded N 0 0 0 0 N := by constructor <;> simp [hM]
    have hv : (forwardPass N cfg x0 (backwardPass L N cfg S (traced N x0 iter (prepared N S w e))).2).2.var = w.var := by
      unfold forwardPass backwardPass
      dsimp only
      split
      · split <;> rfl
      · rfl
    refine ⟨(hereP N w.var).append ((⟨[], [], [], [], Ms⟩ : Points n m α).append Q),
      ((hereP_bounded _).append (hMB.append hQ)).mono (by rw [Nat.mul_add]; omega) (by omega) (by omega) (by omega)
        (by omega), fun S' L' hS => ?_⟩
    have hb' := hb L' S' hS.dt fun k A hk =>
      ⟨hS.right.left.ok k A hk, hS.right.left.ldlt k A hk, hS.right.left.lu k A hk⟩
    have hu' := hu S' L' (by rw [hv]; exact hS.left) hS.right.right
    have ht : ({ prepared N S w e with trace := w.trace ++
      [{ iter := iter, kktError := calcKktError N 0 x0 (prepared N S w e).var (prepared N S w e).coeff
          (prepared N S w e).term }] } : Solver n m p α) = traced N x0 iter (prepared N S w e) := rfl
    unfold procOnce
    rw [← prepare_at hS.left, h]
    dsimp only [Res.bind_ok]
    rw [ht, ← hb', hu']

/-- `procOnce` records one trace entry. -/
theorem procOnce_len {iter : ℕ} {w w' : Solver n m p α} {st : Status} (h : procOnce L N cfg S x0 iter w = .ok (w', st)) :
    w'.trace.length = w.trace.length + 1 := by
  obtain ⟨e, _, _, ht, _⟩ := procOnce_frame h
  rw [ht]
  simp

theorem optLoop_at (hH : cfg.enableLineSearch = true → HalvingLaw α) (r iter : ℕ) (st : Status) (w : Solver n m p α) :
    ∃ (k : ℕ) (Q : Points n m α), k ≤ r ∧
      (∀ w' st', optLoop L N cfg S x0 r iter st w = .ok (w', st') → w'.trace.length = w.trace.length + k) ∧
      Q.Bounded N (k * (N * (1 + trials cfg))) (k * terminalEvals cfg) (k * N) k (k * N) ∧
      ∀ S' L', StagesAgreeAt Q S S' L L' → S.dt = S'.dt →
        optLoop L N cfg S x0 r iter st w = optLoop L' N cfg S' x0 r iter st w := by
  induction r generalizing iter st w with
  | zero =>
    refine ⟨0, .empty, le_rfl, ?_, by simpa using Points.empty_bounded, fun S' L' _ _ => rfl⟩
    intro w' st' h
    cases h
    rfl
  | succ r ih =>
    obtain ⟨Q, hQ, hp⟩ := procOnce_at (L := L) (N := N) (cfg := cfg) (S := S) (x0 := x0) hH iter w
    cases hc : procOnce L N cfg S x0 iter w with
    | ok q =>
      obtain ⟨w1, s1⟩ := q
      by_cases hs : s1 = .iterationContinued
      · obtain ⟨k, Q', hk, hl, hB, hQ'⟩ := ih (iter + 1) s1 w1
        refine ⟨k + 1, Q.append Q', by omega, ?_, ?_, ?_⟩
        · intro w' st' h
          unfold optLoop at h
          rw [hc] at h
          dsimp only [Res.bind_ok] at h
          rw [if_neg (by simp [hs])] at h
          rw [hl w' st' h, procOnce_len hc]
          omega
        · exact (hQ.append hB).mono (by rw [Nat.succ_mul]; omega) (by rw [Nat.succ_mul]; omega)
            (by rw [Nat.succ_mul]; omega) (by omega) (by rw [Nat.succ_mul]; omega)
        · intro S' L' h hd
          unfold optLoop
          rw [← hp S' L' h.left, hc]
          dsimp only [Res.bind_ok]
          rw [if_neg (by simp [hs]), if_neg (by simp [hs])]
          exact hQ' S' L' h.right hd
      · refine ⟨1, Q, by omega, ?_, by simpa using hQ, ?_⟩
        · intro w' st' h
          unfold optLoop at h
          rw [hc] at h
          dsimp only [Res.bind_ok] at h
          rw [if_pos hs] at h
          cases h
          exact procOnce_len hc
        · intro S' L' h hd
          unfold optLoop
          rw [← hp S' L' h, hc]
          dsimp only [Res.bind_ok]
          rw [if_pos hs, if_pos hs]
    | _ =>
      refine ⟨1, Q, by omega, ?_, by simpa using hQ, ?_⟩
      · intro w' st' h
        unfold optLoop at h
        rw [hc] at h
        cases h
      · intro S' L' h hd
        unfold optLoop
        rw [← hp S' L' h, hc]
        rfl

end Rel

section Solve
variable {n : ℕ} {md pd : α → ℕ} {L : GainSolver α} {P : Callbacks n md pd} {dt : α} {cfg : Config α} {o : Obj n α}
  {t0 : α} {sc : Scratch n (fun i => md (timeAt t0 dt i)) (fun i => pd (timeAt t0 dt i)) α} {x0 : Vec n α}
  {init : VarL n α}

/-- `P`, `L` and `P'`, `L'` give the same values at the listed points: `E` (step, state, input) for the dynamics and the running
cost, `G` for the inequality constraint, `T` for the terminal cost, `D` for the derivatives of dynamics, running cost and
constraint, `TD` for the derivatives of the terminal cost, `M` for the factorisations of matrices. -/
structure AgreeAt (P P' : Callbacks n md pd) (L L' : GainSolver α) (t0 dt : α) (N : ℕ)
    (E G : List (Σ i : ℕ, Vec n α × Vec (md (timeAt t0 dt i)) α)) (T : List (Vec n α))
    (D : List (Σ i : ℕ, Vec n α × Vec (md (timeAt t0 dt i)) α)) (TD : List (Vec n α)) (M : List (Σ k : ℕ, Mat k k α)) :
    Prop where
  stateEq : ∀ p ∈ E, P.stateEq (timeAt t0 dt p.1) p.2.1 p.2.2 = P'.stateEq (timeAt t0 dt p.1) p.2.1 p.2.2
  runningCost : ∀ p ∈ E, P.runningCost (timeAt t0 dt p.1) p.2.1 p.2.2 = P'.runningCost (timeAt t0 dt p.1) p.2.1 p.2.2
  ineqConst : ∀ p ∈ G, P.ineqConst (timeAt t0 dt p.1) p.2.1 p.2.2 = P'.ineqConst (timeAt t0 dt p.1) p.2.1 p.2.2
  terminalCost : ∀ x ∈ T, P.terminalCost (timeAt t0 dt N) x = P'.terminalCost (timeAt t0 dt N) x
  stateEqDeriv : ∀ p ∈ D, P.stateEqDeriv (timeAt t0 dt p.1) p.2.1 p.2.2 = P'.stateEqDeriv (timeAt t0 dt p.1) p.2.1 p.2.2
  runningCostDeriv : ∀ p ∈ D,
    P.runningCostDeriv (timeAt t0 dt p.1) p.2.1 p.2.2 = P'.runningCostDeriv (timeAt t0 dt p.1) p.2.1 p.2.2
  ineqConstDeriv : ∀ p ∈ D,
    P.ineqConstDeriv (timeAt t0 dt p.1) p.2.1 p.2.2 = P'.ineqConstDeriv (timeAt t0 dt p.1) p.2.1 p.2.2
  terminalCostDeriv : ∀ x ∈ TD, P.terminalCostDeriv (timeAt t0 dt N) x = P'.terminalCostDeriv (timeAt t0 dt N) x
  ok : ∀ p ∈ M, L.ok p.2 = L'.ok p.2
  ldlt : ∀ p ∈ M, L.ldlt p.2 = L'.ldlt p.2
  lu : ∀ p ∈ M, L.lu p.2 = L'.lu p.2

theorem runSolver_at {m p : ℕ → ℕ} {N : ℕ} {S : Stages n m p α} (hH : cfg.enableLineSearch = true → HalvingLaw α)
    (w : Solver n m p α) :
    ∃ (k : ℕ) (Q : Points n m α), k ≤ cfg.maxIter.toNat ∧
      (∀ w' st', runSolver L N cfg S x0 w = .ok (w', st') → w'.trace.length = w.trace.length + k) ∧
      Q.Bounded N (k * (N * (1 + trials cfg))) (k * terminalEvals cfg) (k * N) k (k * N) ∧
      ∀ S' L', StagesAgreeAt Q S S' L L' → S.dt = S'.dt → runSolver L N cfg S x0 w = runSolver L' N cfg S' x0 w := by
  obtain ⟨k, Q, h1, h2, h3, h4⟩ := optLoop_at (L := L) (N := N) (S := S) (x0 := x0) hH cfg.maxIter.toNat 1 .uninitialized w
  refine ⟨k, Q, h1, fun w' st' h => ?_, h3, fun S' L' h hd => ?_⟩
  · obtain ⟨s', h5, _⟩ := runSolver_ok h
    exact h2 w' s' h5
  · unfold runSolver
    rw [h4 S' L' h hd]

/-- The points at which `init_complementary_variable` evaluates the inequality constraint. -/
def initPoints (md : α → ℕ) (t0 dt : α) (N : ℕ) (v : VarL n α) : List (Σ i : ℕ, Vec n α × Vec (md (timeAt t0 dt i)) α) :=
  (List.range N).filterMap fun i =>
    match v.xs[i]?, v.us[i]? with
    | some x, some (Sigma.mk k u) =>
      if h : k = md (timeAt t0 dt i) then some (Sigma.mk i (x, (h ▸ u : Vec (md (timeAt t0 dt i)) α))) else none
    | _, _ => none

theorem initPoints_len (N : ℕ) (v : VarL n α) : (initPoints md t0 dt N v).length ≤ N :=
  (List.length_filterMap_le _ _).trans (by simp)

theorem initPoints_step {N : ℕ} {v : VarL n α} : ∀ p ∈ initPoints md t0 dt N v, p.1 < N := by
  intro p hp
  obtain ⟨i, hi, he⟩ := List.mem_filterMap.1 hp
  rw [List.mem_range] at hi
  split at he
  · split at he
    · cases he; exact hi
    · cases he
  · cases he

theorem initCompl_at {P' : Callbacks n md pd} (k : ℕ) (v : VarL n α)
    (h : ∀ p ∈ initPoints md t0 dt k v, P.ineqConst (timeAt t0 dt p.1) p.2.1 p.2.2 = P'.ineqConst (timeAt t0 dt p.1) p.2.1 p.2.2) :
    initCompl P t0 dt k v = initCompl P' t0 dt k v := by
  induction k with
  | zero => rfl
  | succ k ih =>
    have ih' := ih fun p hp => h p (by
      unfold initPoints at hp ⊢
      rw [List.range_succ, List.filterMap_append]
      exact List.mem_append_left _ hp)
    unfold initCompl
    rw [← ih']
    rcases initCompl_cases (P := P) (t0 := t0) (dt := dt) k v with h1 | ⟨v1, h1⟩
    · rw [h1]; rfl
    · rw [h1]
      obtain ⟨e1, e2, -⟩ := initCompl_length h1
      dsimp only [Res.bind_ok]
      split
      · rename_i x j u hx hu
        split
        · split
          · rename_i hj
            have := h ⟨k, x, hj ▸ u⟩ (by
              unfold initPoints
              rw [List.mem_filterMap]
              refine ⟨k, List.mem_range.2 (by omega), ?_⟩
              rw [← e1, ← e2, hx, hu]
              dsimp only
              rw [dif_pos hj])
            dsimp only at this
            rw [this]
          · rfl
        · rfl
      · rfl

/-- Number of evaluations of the inequality constraint before the first iteration. -/
def initEvals (cfg : Config α) : ℕ := if cfg.initComplementary then cfg.horizon.toNat else 0

/-- **C129** Query complexity, in any arithmetic in which 34 halvings take a step length in (0,1] below 1e-10.  Let `N` be the
horizon and `I ≤ max_iter` the number of iterations (the length of the trace if the call returns).  The result of the call
(outcome, variables, barrier parameter and trace) is determined by the values of `stateEq` and `runningCost` at
`35 N I` points (`N I` without line search), of `ineqConst` at `N` more, of `terminalCost` at `35 I` points (none without
line search), of the derivatives at `N I` and `I` points, and by the factorisations of `N I` matrices. -/
theorem C129_queries (hH : cfg.enableLineSearch = true → HalvingLaw α) :
    ∃ (I : ℕ) (E G D : List (Σ i : ℕ, Vec n α × Vec (md (timeAt t0 dt i)) α)) (T TD : List (Vec n α))
      (M : List (Σ k : ℕ, Mat k k α)),
      I ≤ cfg.maxIter.toNat ∧
      (∀ st, (solve L P dt cfg o t0 sc x0 init).2 = .ok st → (solve L P dt cfg o t0 sc x0 init).1.trace.length = I) ∧
      (∀ p ∈ E, p.1 < cfg.horizon.toNat) ∧ (∀ p ∈ G, p.1 < cfg.horizon.toNat) ∧ (∀ p ∈ D, p.1 < cfg.horizon.toNat) ∧
      E.length ≤ I * (cfg.horizon.toNat * (if cfg.enableLineSearch then 35 else 1)) ∧
      G.length ≤ (if cfg.initComplementary then cfg.horizon.toNat else 0) +
        I * (cfg.horizon.toNat * (if cfg.enableLineSearch then 35 else 1)) ∧
      T.length ≤ I * (if cfg.enableLineSearch then 35 else 0) ∧
      D.length ≤ I * cfg.horizon.toNat ∧ TD.length ≤ I ∧ M.length ≤ I * cfg.horizon.toNat ∧
      ∀ (P' : Callbacks n md pd) (L' : GainSolver α), AgreeAt P P' L L' t0 dt cfg.horizon.toNat E G T D TD M →
        solve L' P' dt cfg o t0 sc x0 init = solve L P dt cfg o t0 sc x0 init := by
  have htr : 1 + trials cfg = if cfg.enableLineSearch then 35 else 1 := by unfold trials; split <;> rfl
  have hsv : ∀ (P' : Callbacks n md pd), (∀ p ∈ (if cfg.initComplementary then initPoints md t0 dt cfg.horizon.toNat init else []),
      P.ineqConst (timeAt t0 dt p.1) p.2.1 p.2.2 = P'.ineqConst (timeAt t0 dt p.1) p.2.1 p.2.2) →
      startVar P' dt cfg t0 init = startVar P dt cfg t0 init := by
    intro P' h
    unfold startVar
    split
    · rename_i hi
      rw [if_pos hi] at h
      exact (initCompl_at _ _ h).symm
    · rfl
  have hGl : (if cfg.initComplementary then initPoints md t0 dt cfg.horizon.toNat init else []).length ≤
      if cfg.initComplementary then cfg.horizon.toNat else 0 := by
    split
    · exact initPoints_len _ _
    · exact le_rfl
  have hGs : ∀ p ∈ (if cfg.initComplementary then initPoints md t0 dt cfg.horizon.toNat init else []),
      p.1 < cfg.horizon.toNat := by
    split
    · exact initPoints_step
    · intro p hp; cases hp
  by_cases hv : ∃ v, startVar P dt cfg t0 init = .ok v ∧ checkVariable md pd t0 dt cfg.horizon v = .ok ()
  · obtain ⟨v, hv, hc⟩ := hv
    have hN : v.us.length = cfg.horizon.toNat := by
      have : (v.us.length : ℤ) = cfg.horizon := by
        unfold checkVariable at hc
        split at hc
        · cases hc
        · split at hc
          · cases hc
          · rename_i h; exact not_not.1 h
      omega
    obtain ⟨k, Q, h1, h2, h3, h4⟩ := runSolver_at (L := L) (N := v.us.length) (S := stagesOf P t0 dt v.us.length) (x0 := x0) hH
      (initSolver v (startEps cfg o) sc)
    rw [hN, htr] at h3
    refine ⟨k, Q.E, (if cfg.initComplementary then initPoints md t0 dt cfg.horizon.toNat init else []) ++ Q.E, Q.D, Q.T, Q.TD,
      Q.M, h1, ?_, h3.E_step, ?_, h3.D_step, h3.E_len, ?_, h3.T_len, h3.D_len, h3.TD_len, h3.M_len, ?_⟩
    · intro st hst
      obtain ⟨v', w, hv', _, hr, ho⟩ := solve_ok (o' := (solve L P dt cfg o t0 sc x0 init).1) (Prod.ext rfl hst)
      rw [hv] at hv'
      cases hv'
      rw [ho]
      have := h2 w st hr
      simpa [initSolver] using this
    · intro p hp
      rcases List.mem_append.1 hp with hp | hp
      · exact hGs p hp
      · exact h3.E_step p hp
    · rw [List.length_append]
      exact Nat.add_le_add hGl h3.E_len
    · intro P' L' hA
      have hv' : startVar P' dt cfg t0 init = .ok v := by
        rw [← hv]
        exact hsv P' fun p hp => hA.ineqConst p (List.mem_append_left _ hp)
      rw [← hN] at hA
      have hr := h4 (stagesOf P' t0 dt v.us.length) L'
        ⟨rfl, fun i x u h => hA.stateEq _ h, fun i x u h => hA.runningCost _ h,
          fun i x u h => hA.ineqConst _ (List.mem_append_right _ h), hA.terminalCost, fun i x u h => hA.stateEqDeriv _ h,
          fun i x u h => hA.ineqConstDeriv _ h, fun i x u h => hA.runningCostDeriv _ h, hA.terminalCostDeriv,
          fun k A h => hA.ok _ h, fun k A h => hA.ldlt _ h, fun k A h => hA.lu _ h⟩ rfl
      unfold solve
      dsimp only
      rw [show (if cfg.initComplementary = true then initCompl P' t0 dt cfg.horizon.toNat init else .ok init) =
        startVar P' dt cfg t0 init from rfl, hv',
        show (if cfg.initComplementary = true then initCompl P t0 dt cfg.horizon.toNat init else .ok init) =
        startVar P dt cfg t0 init from rfl, hv]
      dsimp only
      rw [hc]
      dsimp only
      rw [show (if cfg.initComplementary = true then initialBarrierEps else o.eps) = startEps cfg o from rfl, hr]
  · refine ⟨0, [], if cfg.initComplementary then initPoints md t0 dt cfg.horizon.toNat init else [], [], [], [], [],
      by omega, ?_, by simp, hGs, by simp, by simp, by simpa using hGl, by simp, by simp, by simp, by simp, ?_⟩
    · intro st hst
      obtain ⟨v', w, hv', hc', _⟩ := solve_ok (o' := (solve L P dt cfg o t0 sc x0 init).1) (Prod.ext rfl hst)
      exact absurd ⟨v', hv', hc'⟩ hv
    · intro P' L' hA
      have hv' := hsv P' hA.ineqConst
      unfold solve
      dsimp only
      rw [show (if cfg.initComplementary = true then initCompl P' t0 dt cfg.horizon.toNat init else .ok init) =
        startVar P' dt cfg t0 init from rfl, hv',
        show (if cfg.initComplementary = true then initCompl P t0 dt cfg.horizon.toNat init else .ok init) =
        startVar P dt cfg t0 init from rfl]
      cases hs : startVar P dt cfg t0 init with
      | ok v =>
        dsimp only
        cases hc : checkVariable md pd t0 dt cfg.horizon v with
        | ok _ => exact absurd ⟨v, hs, hc⟩ hv
        | _ => rfl
      | _ => rfl

/-- **C129** The numbers without case distinction on the configuration. -/
theorem C129_uniform (hH : HalvingLaw α) :
    ∃ (I : ℕ) (E G D : List (Σ i : ℕ, Vec n α × Vec (md (timeAt t0 dt i)) α)) (T TD : List (Vec n α))
      (M : List (Σ k : ℕ, Mat k k α)),
      I ≤ cfg.maxIter.toNat ∧ E.length ≤ 35 * cfg.horizon.toNat * I ∧ G.length ≤ cfg.horizon.toNat * (1 + 35 * I) ∧
      T.length ≤ 35 * I ∧ D.length ≤ cfg.horizon.toNat * I ∧ TD.length ≤ I ∧ M.length ≤ cfg.horizon.toNat * I ∧
      ∀ (P' : Callbacks n md pd) (L' : GainSolver α), AgreeAt P P' L L' t0 dt cfg.horizon.toNat E G T D TD M →
        solve L' P' dt cfg o t0 sc x0 init = solve L P dt cfg o t0 sc x0 init := by
  obtain ⟨I, E, G, D, T, TD, M, h1, -, -, -, -, h2, h3, h4, h5, h6, h7, h8⟩ := C129_queries (L := L) (P := P) (dt := dt)
    (cfg := cfg) (o := o) (t0 := t0) (sc := sc) (x0 := x0) (init := init) (fun _ => hH)
  have hi : (if cfg.enableLineSearch then 35 else 1) ≤ 35 := by split <;> omega
  have hi0 : (if cfg.enableLineSearch then 35 else 0) ≤ 35 := by split <;> omega
  have hc : (if cfg.initComplementary then cfg.horizon.toNat else 0) ≤ cfg.horizon.toNat := by split <;> omega
  have hE : I * (cfg.horizon.toNat * (if cfg.enableLineSearch then 35 else 1)) ≤ I * (cfg.horizon.toNat * 35) :=
    Nat.mul_le_mul_left _ (Nat.mul_le_mul_left _ hi)
  refine ⟨I, E, G, D, T, TD, M, h1, h2.trans (hE.trans (le_of_eq (by ring))), ?_,
    h4.trans ((Nat.mul_le_mul_left _ hi0).trans (le_of_eq (by ring))), h5.trans (le_of_eq (by ring)), h6,
    h7.trans (le_of_eq (by ring)), h8⟩
  refine (h3.trans (Nat.add_le_add hc hE)).trans (le_of_eq (by ring))

end Solve

/-- The default configuration with two steps and ten iterations: at most 700 evaluations of the dynamics and twenty
factorisations, for real numbers … -/
example (o : Obj 2 ℝ) (x0 : Vec 2 ℝ)
    (sc : Scratch 2 (fun i => (fun _ : ℝ => 1) (timeAt 0 1 i)) (fun i => (fun _ : ℝ => 2) (timeAt 0 1 i)) ℝ) :
    ∃ (E G D : List (Σ _ : ℕ, Vec 2 ℝ × Vec 1 ℝ)) (T TD : List (Vec 2 ℝ)) (M : List (Σ k : ℕ, Mat k k ℝ)),
      E.length ≤ 700 ∧ G.length ≤ 702 ∧ T.length ≤ 350 ∧ D.length ≤ 20 ∧ TD.length ≤ 10 ∧ M.length ≤ 20 ∧
      ∀ (P' : Callbacks 2 (fun _ : ℝ => 1) (fun _ => 2)) (L' : GainSolver ℝ),
        AgreeAt box P' realGain L' 0 1 2 E G T D TD M →
        ∃ o' st, solve L' P' 1 exCfg o 0 sc x0 (exInit 2) = (o', .ok st) := by
  obtain ⟨o', st, ho⟩ := ex_returns o x0 sc
  obtain ⟨I, E, G, D, T, TD, M, h1, h2, h3, h4, h5, h6, h7, h8⟩ := C129_uniform (L := realGain) (P := box) (dt := 1)
    (cfg := exCfg) (o := o) (t0 := 0) (sc := sc) (x0 := x0) (init := exInit 2) halvingLaw_real
  have hN : exCfg.horizon.toNat = 2 := rfl
  have hI : exCfg.maxIter.toNat = 10 := rfl
  rw [hN] at h2 h3 h5 h7 h8
  rw [hI] at h1
  refine ⟨E, G, D, T, TD, M, by omega, by omega, by omega, by omega, by omega, by omega, fun P' L' hA => ⟨o', st, ?_⟩⟩
  rw [h8 P' L' hA, ho]

/-- … and for floating-point numbers. -/
example {α : Type} [Add α] [Sub α] [Mul α] [Div α] [Neg α] [Zero α] [One α] [FOps α] {u : ℝ} (F : FloatLaws α u)
    (hu : u ≤ 1 / 2048) : HalvingLaw α := halvingLaw_float F hu

end Nmpc.FMPC
