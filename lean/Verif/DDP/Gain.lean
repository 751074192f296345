import Verif.DDP.Chain
import Verif.DDP.Reg

/-!
# Gains without input limits (exact arithmetic): lemmas for C17, C18, C19, C22
-/

namespace Nmpc.DDP

set_option linter.unusedSectionVars false

open Matrix Finset

section OneStage
variable {n k : ℕ} {L : LLT ℝ} {cfg : Config ℝ} {lambda : ℝ}

theorem solveMat_exact {a b : ℕ} (hL : L.Exact) {M : Mat a a ℝ} (hM : M.PosDef) (B : Mat a b ℝ) :
    M * L.solveMat M B = B := by
  ext i j
  have := congrFun (hL.solve_eq M (fun r => B r j) hM) i
  rw [Matrix.mul_apply]
  exact this

theorem addDiag_real (A : Mat k k ℝ) (a : ℝ) : addDiag A a = A + a • (1 : Mat k k ℝ) := by
  ext i j
  simp only [addDiag, Matrix.add_apply, Matrix.smul_apply, Matrix.one_apply, smul_eq_mul]
  split <;> simp

theorem addDiag_symm {A : Mat k k ℝ} (h : A.IsSymm) (a : ℝ) : (addDiag A a).IsSymm := by
  rw [addDiag_real]
  simp only [Matrix.IsSymm, transpose_add, transpose_smul, transpose_one, h.eq]

theorem calcQ_QuuF_symm {F : FDeriv n k ℝ} {Ld : LDeriv n k ℝ} {V : VDeriv n ℝ} (hV : V.Vxx.IsSymm)
    (hL : Ld.Luu.IsSymm) : (calcQ cfg lambda F Ld V).QuuF.IsSymm := by
  have h1 : ∀ W : Mat n n ℝ, W.IsSymm → (Ld.Luu + F.Fuᵀ * W * F.Fu).IsSymm := by
    intro W hW
    simp only [Matrix.IsSymm, transpose_add, transpose_mul, transpose_transpose, hW.eq, hL.eq, Matrix.mul_assoc]
  simp only [calcQ, matMul_real]
  split
  · refine addDiag_symm (h1 _ ?_) _
    split
    · exact addDiag_symm hV _
    · exact hV
  · refine h1 _ ?_
    split
    · exact addDiag_symm hV _
    · exact hV

/-- Regularisation only adds to the quadratic form. -/
theorem calcQ_quad_le (h0 : 0 ≤ lambda) (F : FDeriv n k ℝ) (Ld : LDeriv n k ℝ) (V : VDeriv n ℝ) (v : Vec k ℝ) :
    v ⬝ᵥ (calcQ cfg lambda F Ld V).Quu *ᵥ v ≤ v ⬝ᵥ (calcQ cfg lambda F Ld V).QuuF *ᵥ v := by
  have h1 : ∀ (j : ℕ) (A : Mat j j ℝ) (w : Vec j ℝ), w ⬝ᵥ A *ᵥ w ≤ w ⬝ᵥ addDiag A lambda *ᵥ w := by
    intro j A w
    rw [addDiag_real, add_mulVec, dotProduct_add, smul_mulVec, one_mulVec, dotProduct_smul, smul_eq_mul]
    linarith [mul_nonneg h0 (dot_self_nonneg w)]
  have h2 : v ⬝ᵥ (Ld.Luu + F.Fuᵀ * V.Vxx * F.Fu) *ᵥ v ≤
      v ⬝ᵥ (Ld.Luu + F.Fuᵀ * (if cfg.regType = 2 then addDiag V.Vxx lambda else V.Vxx) * F.Fu) *ᵥ v := by
    simp only [add_mulVec, dotProduct_add, conj_dot]
    split
    · linarith [h1 n V.Vxx (F.Fu *ᵥ v)]
    · exact le_rfl
  simp only [calcQ, matMul_real]
  split
  · exact le_trans h2 (h1 _ _ _)
  · exact h2

theorem calcQ_zero (F : FDeriv n k ℝ) (Ld : LDeriv n k ℝ) (V : VDeriv n ℝ) :
    (calcQ cfg 0 F Ld V).QuuF = (calcQ cfg 0 F Ld V).Quu ∧ (calcQ cfg 0 F Ld V).QuxReg = (calcQ cfg 0 F Ld V).Qux := by
  constructor <;> simp only [calcQ, addDiag_real, zero_smul, add_zero, ite_self]

end OneStage

variable {n : ℕ} {m : ℕ → ℕ} {L : LLT ℝ} {N : ℕ} {cfg : Config ℝ} {S : Stages n m ℝ}

/-- The equations solved by the gains of a stage without limits. -/
structure GainEq {n k : ℕ} (Q : QData n k ℝ) (kv : Vec k ℝ) (K : Mat k n ℝ) : Prop where
  posDef : Q.QuuF.PosDef
  ff : Q.QuuF *ᵥ kv = -Q.Qu
  fb : ∀ v, Q.QuuF *ᵥ (K *ᵥ v) = -(Q.QuxReg *ᵥ v)

theorem stageGains_unconstrained (hL : L.Exact) (hw : cfg.withConstraint = false) {c : Ctrl n m ℝ} {g : Gains n m ℝ}
    {i : ℕ} {Q : QData n (m i) ℝ} (hs : Q.QuuF.IsSymm) {kv : Vec (m i) ℝ} {K : Mat (m i) n ℝ}
    (h : stageGains L N cfg S c g i Q = .ok (some (kv, K))) : GainEq Q kv K := by
  unfold stageGains at h
  split at h
  · rw [if_neg (by simp [hw])] at h
    unfold unconstrainedGains at h
    split at h
    · rename_i hok
      simp only [Res.ok.injEq, Option.some.injEq, Prod.mk.injEq] at h
      obtain ⟨rfl, rfl⟩ := h
      have hp := (hL.ok_iff _ hs).1 hok
      refine ⟨hp, ?_, ?_⟩
      · rw [smulv_real, mulVec_smul, hL.solve_eq _ _ hp, neg_smul, one_smul]
      · intro v
        rw [mulVec_mulVec, smulm_real, Matrix.mul_smul, solveMat_exact hL hp, smul_mulVec, neg_smul, one_smul]
    · simp at h
  · rename_i h0
    have : m i = 0 := by omega
    have hE : IsEmpty (Fin (m i)) := by rw [this]; infer_instance
    refine ⟨posDef_iff.2 ⟨hs, fun v hv => absurd (Subsingleton.elim v 0) hv⟩, Subsingleton.elim _ _,
      fun v => Subsingleton.elim _ _⟩

/-- What a successful regularisation loop at the start of an iteration leaves behind. -/
theorem bwSearch_chain {iter : ℕ} {s s2 : Solver n m ℝ}
    (h : bwSearch L N cfg S (startIter N cfg S iter s) = (s2, .ok true)) :
    s2.ctrl = s.ctrl ∧ s2.derivs = calcDerivs N cfg S s.ctrl s.derivs ∧ s2.trace = s.trace ++ [Trace.new iter] ∧
    ∃ V : ℕ → VDeriv n ℝ, V N = s2.derivs.V ∧ Chain L N cfg S s.ctrl s2.derivs s2.lambda N V s2.gains ∧
      s2.dV0 = ∑ j ∈ range N, s2.gains.k j ⬝ᵥ (Qat cfg s2.lambda s2.derivs V j).Qu ∧
      s2.dV1 = ∑ j ∈ range N, 1 / 2 * (s2.gains.k j ⬝ᵥ (Qat cfg s2.lambda s2.derivs V j).Quu *ᵥ s2.gains.k j) := by
  obtain ⟨s', b, hf, hb, rfl⟩ := bwSearch_ok h
  obtain ⟨V, h1, h2, h3, h4⟩ := backwardPass_chain hb
  refine ⟨hf.1, hf.2.1, hf.2.2, V, h1, ?_, h3, h4⟩
  have : s'.ctrl = s.ctrl := hf.1
  rw [this] at h2
  exact h2

/-! ## `k_rel_norm` -/

theorem vnorm_real {k : ℕ} (v : Vec k ℝ) : vnorm v = Real.sqrt (v ⬝ᵥ v) := rfl

theorem vnorm_nonneg {k : ℕ} (v : Vec k ℝ) : 0 ≤ vnorm v := Real.sqrt_nonneg _

theorem vnorm_zero {k : ℕ} : vnorm (0 : Vec k ℝ) = 0 := by simp [vnorm_real]

theorem vnorm_pos {k : ℕ} {v : Vec k ℝ} (h : v ≠ 0) : 0 < vnorm v := by
  rw [vnorm_real, Real.sqrt_pos]
  rcases (dot_self_nonneg v).lt_or_eq with h1 | h1
  · exact h1
  · exact absurd (dotProduct_self_eq_zero.1 h1.symm) h

theorem kRelNorm_zero {s : Solver n m ℝ} (h : ∀ j < N, s.gains.k j = 0) : kRelNorm N s = 0 := by
  refine forUp_invariant (fun _ a => a = (0 : ℝ)) rfl ?_
  intro i a hi ha
  rw [ha, h i hi, vnorm_zero]
  simp

theorem kRelNorm_ge {s : Solver n m ℝ} {j : ℕ} (hj : j < N) :
    vnorm (s.gains.k j) / (vnorm (s.ctrl.u j) + 1) ≤ kRelNorm N s := by
  refine forUp_invariant (fun i (a : ℝ) => ∀ j < i, vnorm (s.gains.k j) / (vnorm (s.ctrl.u j) + 1) ≤ a) ?_ ?_ j hj
  · intro j hj; omega
  · intro i a hi ha j hj
    rw [fmax_real]
    rcases Nat.lt_succ_iff_lt_or_eq.1 hj with hj | rfl
    · exact le_trans (ha j hj) (le_max_left _ _)
    · exact le_max_right _ _

theorem kRelNorm_eq_zero_iff {s : Solver n m ℝ} : kRelNorm N s = 0 ↔ ∀ j < N, s.gains.k j = 0 := by
  refine ⟨fun h j hj => ?_, kRelNorm_zero⟩
  by_contra hk
  have h1 := kRelNorm_ge (s := s) hj
  rw [h] at h1
  exact absurd h1 (not_le.2 (div_pos (vnorm_pos hk) (by linarith [vnorm_nonneg (s.ctrl.u j)])))

/-! ## The candidate trajectory -/

theorem forwardPass_u (c : Ctrl n m ℝ) (g : Gains n m ℝ) (a : ℝ) (j : ℕ) :
    (forwardPass N S c g a).u j =
      c.u j + a • g.k j + g.K j *ᵥ ((forwardPass N S c g a).x j - c.x j) := rfl

/-- Without feedforward terms the candidate is the current trajectory. -/
theorem forwardPass_zero {x0 : Vec n ℝ} {c : Ctrl n m ℝ} {g : Gains n m ℝ} (hc : Consistent N S x0 c)
    (hk : ∀ j < N, g.k j = 0) (a : ℝ) :
    (∀ j ≤ N, (forwardPass N S c g a).x j = c.x j) ∧ (∀ j < N, (forwardPass N S c g a).u j = c.u j) ∧
      ∀ j ≤ N, (forwardPass N S c g a).cost j = c.cost j := by
  have hcons : Consistent N S x0 (forwardPass N S c g a) := forwardPass_consistent hc.start
  have hx : ∀ j ≤ N, (forwardPass N S c g a).x j = c.x j := by
    intro j
    induction j with
    | zero => intro _; rw [hcons.start, hc.start]
    | succ j ih =>
      intro hj
      rw [hcons.step j (by omega), hc.step j (by omega), forwardPass_u, ih (by omega), hk j (by omega)]
      simp
  have hu : ∀ j < N, (forwardPass N S c g a).u j = c.u j := by
    intro j hj
    rw [forwardPass_u, hx j hj.le, hk j hj]; simp
  refine ⟨hx, hu, ?_⟩
  intro j hj
  rcases Nat.lt_or_eq_of_le hj with hj | rfl
  · rw [hcons.run j hj, hc.run j hj, hx j hj.le, hu j hj]
  · rw [hcons.term, hc.term, hx _ le_rfl]

theorem totalCost_congr {c c' : Ctrl n m ℝ} (h : ∀ j ≤ N, c.cost j = c'.cost j) : totalCost N c = totalCost N c' := by
  rw [totalCost_real, totalCost_real, h N le_rfl, sum_congr rfl fun j hj => h j (mem_range.1 hj).le]

theorem polErr_forwardPass (c : Ctrl n m ℝ) (g : Gains n m ℝ) (a : ℝ) (j : ℕ) :
    polErr c (forwardPass N S c g a) g j = (a - 1) • g.k j := by
  rw [polErr, forwardPass_u, sub_smul, one_smul]
  abel

/-! ## The line search always reports a tried step size -/

theorem tryAlphas_some (s : Solver n m ℝ) (as : List ℝ) (r : Fwd n m ℝ) (h : as ≠ []) :
    ∃ a ∈ as, tryAlphas N cfg S s as r = tryAlpha N cfg S s a := by
  induction as generalizing r with
  | nil => exact absurd rfl h
  | cons a as ih =>
    unfold tryAlphas
    dsimp only
    split
    · exact ⟨a, by simp, rfl⟩
    · by_cases ha : as = []
      · subst ha; exact ⟨a, by simp, rfl⟩
      · obtain ⟨a', h1, h2⟩ := ih (tryAlpha N cfg S s a) ha
        exact ⟨a', by simp [h1], h2⟩

theorem lineSearch_some (s : Solver n m ℝ) (h : (lineSearch N cfg S s).alpha ≠ 0) :
    ∃ a ∈ cfg.alphaList, lineSearch N cfg S s = tryAlpha N cfg S s a ∧ (lineSearch N cfg S s).alpha = a := by
  by_cases ha : cfg.alphaList = []
  · exfalso; apply h; unfold lineSearch; rw [ha]; rfl
  · obtain ⟨a, h1, h2⟩ := tryAlphas_some (N := N) (cfg := cfg) (S := S) s cfg.alphaList
      { success := false, alpha := 0, actual := 0, expected := 0, ratio := 0, cand := s.ctrl } ha
    have h2 : lineSearch N cfg S s = tryAlpha N cfg S s a := h2
    exact ⟨a, h1, h2, by rw [h2]; rfl⟩

theorem tryAlpha_real (s : Solver n m ℝ) (a : ℝ) :
    (tryAlpha N cfg S s a).actual = totalCost N s.ctrl - totalCost N (forwardPass N S s.ctrl s.gains a) ∧
    (tryAlpha N cfg S s a).expected = -a * (s.dV0 + a * s.dV1) := by
  refine ⟨rfl, ?_⟩
  show (-1 : ℝ) * a * (s.dV0 + a * s.dV1) = _
  ring

end Nmpc.DDP
