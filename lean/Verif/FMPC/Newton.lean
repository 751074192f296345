import Verif.FMPC.Kkt
import Verif.Base.LinAlg
import Mathlib.LinearAlgebra.Matrix.NonsingularInverse
import Mathlib.Tactic.NoncommRing

/-!
# FMPC: the Riccati recursion computes the Newton step (C30, C31)
-/

set_option linter.unusedSectionVars false

namespace Nmpc.FMPC

open DDP (FDeriv LDeriv VDeriv timeAt)
open Matrix Finset

variable {n : ℕ} {m p : ℕ → ℕ} {L : GainSolver ℝ} {N : ℕ} {cfg : Config ℝ} {S : Stages n m p ℝ} {x0 : Vec n ℝ}

/-- Contract of `Eigen::LDLT` (symmetric arguments) and `Eigen::FullPivLU` in exact arithmetic: a nonsingular system is
solved, and LDLT succeeds on positive definite matrices. -/
structure ExactGain (L : GainSolver ℝ) : Prop where
  ldlt : ∀ {k : ℕ} (A : Mat k k ℝ) (b : Vec k ℝ), A.IsSymm → IsUnit A.det → L.ok A = true → A *ᵥ L.ldlt A b = b
  lu : ∀ {k : ℕ} (A : Mat k k ℝ) (b : Vec k ℝ), IsUnit A.det → A *ᵥ L.lu A b = b
  ok : ∀ {k : ℕ} (A : Mat k k ℝ), A.PosDef → L.ok A = true

/-- `s_{i}` of the recursion: that of the coefficient or of the terminal coefficient. -/
def nextS (N : ℕ) (co : (i : ℕ) → Coeff n (m i) (p i) ℝ) (term : TCoeff n ℝ) (i : ℕ) : Vec n ℝ :=
  if i < N then (co i).s else term.s

/-- `P_{i}` of the recursion. -/
def nextP (N : ℕ) (co : (i : ℕ) → Coeff n (m i) (p i) ℝ) (term : TCoeff n ℝ) (i : ℕ) : Mat n n ℝ :=
  if i < N then (co i).P else term.P

/-- The matrix of the gain system of step `i`: `dt Luu + Dᵀ diag(nu/s) D + Bᵀ P_{i+1} B`. -/
noncomputable def gainMatrix (dt : ℝ) (N : ℕ) (v : Var n m p ℝ) (co : (i : ℕ) → Coeff n (m i) (p i) ℝ) (term : TCoeff n ℝ) (i : ℕ) :
    Mat (m i) (m i) ℝ :=
  dt • (co i).L.Luu + (co i).G.Dᵀ * diagonal (fun j => v.nu i j / v.s i j) * (co i).G.D
    + (co i).F.Fuᵀ * nextP N co term (i + 1) * (co i).F.Fu

/-- The linearised perturbed KKT system at `v` with direction `d`. -/
structure NewtonSystem (N : ℕ) (dt eps : ℝ) (x0 : Vec n ℝ) (v : Var n m p ℝ) (co : (i : ℕ) → Coeff n (m i) (p i) ℝ)
    (term : TCoeff n ℝ) (d : Var n m p ℝ) : Prop where
  /-- initial state -/
  init : d.x 0 = x0 - v.x 0
  /-- dynamics -/
  dyn : ∀ i < N, (co i).F.Fx *ᵥ d.x i + (co i).F.Fu *ᵥ d.u i - d.x (i + 1) = - (co i).xbar
  /-- inequality constraints with slacks -/
  ineq : ∀ i < N, (co i).G.C *ᵥ d.x i + (co i).G.D *ᵥ d.u i + d.s i = - (co i).gbar
  /-- perturbed complementarity -/
  compl : ∀ i < N, ∀ j, v.nu i j * d.s i j + v.s i j * d.nu i j = - (v.s i j * v.nu i j - eps)
  /-- stationarity with respect to the state -/
  statx : ∀ i < N, dt • ((co i).L.Lxx *ᵥ d.x i + (co i).L.Lxu *ᵥ d.u i) - d.lam i + (co i).F.Fxᵀ *ᵥ d.lam (i + 1)
    + (co i).G.Cᵀ *ᵥ d.nu i = - (co i).Lxbar
  /-- stationarity with respect to the input -/
  statu : ∀ i < N, dt • ((co i).L.Lxuᵀ *ᵥ d.x i + (co i).L.Luu *ᵥ d.u i) + (co i).F.Fuᵀ *ᵥ d.lam (i + 1)
    + (co i).G.Dᵀ *ᵥ d.nu i = - (co i).Lubar
  /-- terminal stationarity -/
  term : term.V.Vxx *ᵥ d.x N - d.lam N = - term.Lxbar

/-- Symmetry of the Hessians. -/
def SymmHess (N : ℕ) (co : (i : ℕ) → Coeff n (m i) (p i) ℝ) (term : TCoeff n ℝ) : Prop :=
  (∀ i < N, (co i).L.Lxx.IsSymm ∧ (co i).L.Luu.IsSymm) ∧ term.V.Vxx.IsSymm

/-! ## One stage -/

theorem mulDiag_eq {k l : ℕ} (A : Mat k l ℝ) (d : Vec l ℝ) : mulDiag A d = A * diagonal d := by
  ext i j
  rw [mul_diagonal]
  rfl

/-- Relations between the gains, `s`, `P` of a stage and `s`, `P` of the next one. -/
structure StageRel {k q : ℕ} (dt eps : ℝ) (sl nu : Vec q ℝ) (c : Coeff n k q ℝ) (s : Vec n ℝ) (P : Mat n n ℝ)
    (c' : Coeff n k q ℝ) : Prop where
  gain : (gainData dt eps sl nu c P).G *ᵥ c'.k =
    - (c.F.Fuᵀ *ᵥ (P *ᵥ c.xbar - s) + (gainData dt eps sl nu c P).Lu)
  Gain : (gainData dt eps sl nu c P).G * c'.K = - (gainData dt eps sl nu c P).Hᵀ
  s : c'.s = c.F.Fxᵀ *ᵥ (s - P *ᵥ c.xbar) - (gainData dt eps sl nu c P).Lx - (gainData dt eps sl nu c P).H *ᵥ c'.k
  P : c'.P = (gainData dt eps sl nu c P).F + (gainData dt eps sl nu c P).H * c'.K
  symm : c'.P.IsSymm

theorem gainData_G_symm {k q : ℕ} {dt eps : ℝ} {sl nu : Vec q ℝ} {c : Coeff n k q ℝ} {P : Mat n n ℝ} (hP : P.IsSymm)
    (hL : c.L.Luu.IsSymm) : (gainData dt eps sl nu c P).G.IsSymm := by
  unfold gainData
  simp only [matMul_real, smulm_real, mulDiag_eq]
  unfold Matrix.IsSymm at *
  simp only [transpose_add, transpose_smul, transpose_mul, transpose_transpose, diagonal_transpose, hL, hP, Matrix.mul_assoc]

theorem gainData_F_symm {k q : ℕ} {dt eps : ℝ} {sl nu : Vec q ℝ} {c : Coeff n k q ℝ} {P : Mat n n ℝ} (hP : P.IsSymm)
    (hL : c.L.Lxx.IsSymm) : (gainData dt eps sl nu c P).F.IsSymm := by
  unfold gainData
  simp only [matMul_real, smulm_real, mulDiag_eq]
  unfold Matrix.IsSymm at *
  simp only [transpose_add, transpose_smul, transpose_mul, transpose_transpose, diagonal_transpose, hL, hP, Matrix.mul_assoc]

theorem solveCols_eq {k l : ℕ} {A : Mat k k ℝ} {slv : Vec k ℝ → Vec k ℝ} (h : ∀ b, A *ᵥ slv b = b) (R : Mat k l ℝ) :
    A * solveCols slv R = R := by
  ext i j
  have := congrFun (h (fun r => R r j)) i
  rw [← this]
  rfl

theorem solveGains_spec (hL : ExactGain L) {k : ℕ} {q : GainData n k ℝ} {Fu : Mat n k ℝ} {xbar s : Vec n ℝ} {P : Mat n n ℝ}
    (hs : q.G.IsSymm) (hu : IsUnit q.G.det) {kk : Vec k ℝ} {K : Mat k n ℝ}
    (h : solveGains L cfg q Fu xbar s P = some (kk, K)) :
    q.G *ᵥ kk = - (Fuᵀ *ᵥ (P *ᵥ xbar - s) + q.Lu) ∧ q.G * K = - q.Hᵀ := by
  unfold solveGains at h
  dsimp only at h
  split at h
  · split at h
    · rename_i hok
      cases h
      have hslv := fun b => hL.ldlt q.G b hs hu hok
      simp only [smulv_real, smulm_real, mulVec_smul, Matrix.mul_smul, hslv, solveCols_eq hslv, mulVec_real]
      constructor <;> module
    · split at h
      · cases h
      · cases h
        have hslv := fun b => hL.lu q.G b hu
        simp only [smulv_real, smulm_real, mulVec_smul, Matrix.mul_smul, hslv, solveCols_eq hslv, mulVec_real]
        constructor <;> module
  · rename_i hk
    have : k = 0 := by omega
    subst this
    exact ⟨Subsingleton.elim _ _, by ext i; exact i.elim0⟩

theorem bwStage_rel (hL : ExactGain L) {k q : ℕ} {dt eps : ℝ} {sl nu : Vec q ℝ} {c c' : Coeff n k q ℝ} {s : Vec n ℝ}
    {P : Mat n n ℝ} (hP : P.IsSymm) (hxx : c.L.Lxx.IsSymm) (huu : c.L.Luu.IsSymm)
    (hu : IsUnit (gainData dt eps sl nu c P).G.det) (h : bwStage L cfg dt eps sl nu c s P = some c') :
    StageRel dt eps sl nu c s P c' := by
  unfold bwStage at h
  dsimp only at h
  split at h
  · cases h
  · rename_i kk K hg
    have hGs := gainData_G_symm (dt := dt) (eps := eps) (sl := sl) (nu := nu) hP huu
    have hFs := gainData_F_symm (dt := dt) (eps := eps) (sl := sl) (nu := nu) hP hxx
    obtain ⟨h1, h2⟩ := solveGains_spec hL hGs hu hg
    cases h
    have hKGK : Kᵀ * (gainData dt eps sl nu c P).G * K = - (Kᵀ * (gainData dt eps sl nu c P).Hᵀ) := by
      rw [Matrix.mul_assoc, h2, Matrix.mul_neg]
    have hKs : Kᵀ * (gainData dt eps sl nu c P).Hᵀ = (gainData dt eps sl nu c P).H * K := by
      have h3 : (Kᵀ * (gainData dt eps sl nu c P).G * K)ᵀ = Kᵀ * (gainData dt eps sl nu c P).G * K := by
        have hGs' : ((gainData dt eps sl nu c P).G)ᵀ = (gainData dt eps sl nu c P).G := hGs
        simp only [transpose_mul, transpose_transpose, hGs', Matrix.mul_assoc]
      rw [hKGK, transpose_neg, transpose_mul, transpose_transpose, transpose_transpose] at h3
      exact (neg_injective h3).symm
    have hP' : (gainData dt eps sl nu c P).F - Kᵀ * (gainData dt eps sl nu c P).G * K =
        (gainData dt eps sl nu c P).F + (gainData dt eps sl nu c P).H * K := by
      rw [hKGK, hKs, sub_neg_eq_add]
    have hsym : ((gainData dt eps sl nu c P).F + (gainData dt eps sl nu c P).H * K).IsSymm := by
      unfold Matrix.IsSymm at *
      rw [transpose_add, hFs, transpose_mul, hKs]
    have hsymm2 : smulm (lit (1 / 2)) ((gainData dt eps sl nu c P).F + (gainData dt eps sl nu c P).H * K +
        ((gainData dt eps sl nu c P).F + (gainData dt eps sl nu c P).H * K)ᵀ) =
        (gainData dt eps sl nu c P).F + (gainData dt eps sl nu c P).H * K := by
      rw [hsym, smulm_real, lit_real]
      push_cast
      module
    have hPeq : smulm (lit (1 / 2)) ((gainData dt eps sl nu c P).F -
        FOps.matMul (FOps.matMul Kᵀ (gainData dt eps sl nu c P).G) K +
        ((gainData dt eps sl nu c P).F - FOps.matMul (FOps.matMul Kᵀ (gainData dt eps sl nu c P).G) K)ᵀ) =
        (gainData dt eps sl nu c P).F + (gainData dt eps sl nu c P).H * K := by
      rw [matMul_real, matMul_real, hP', hsymm2]
    refine ⟨h1, h2, rfl, hPeq, ?_⟩
    dsimp only
    rw [hPeq]
    exact hsym

/-- The stationarity equations follow from the stage relations. -/
theorem stage_newton {k q : ℕ} {dt eps : ℝ} {sl nu : Vec q ℝ} {c c' : Coeff n k q ℝ} {s : Vec n ℝ} {P : Mat n n ℝ}
    (h : StageRel dt eps sl nu c s P c') (hPs : P.IsSymm) (hsl : ∀ j, sl j ≠ 0) (dx dx' lam lam' : Vec n ℝ) (du : Vec k ℝ) (ds dnu : Vec q ℝ)
    (hu : du = c'.K *ᵥ dx + c'.k) (hx' : dx' = c.F.Fx *ᵥ dx + c.F.Fu *ᵥ du + c.xbar)
    (hs : ds = - (c.G.C *ᵥ dx + c.G.D *ᵥ du + c.gbar)) (hn : ∀ j, dnu j = -1 * (nu j * (ds j + sl j) - eps) / sl j)
    (hl : lam = c'.P *ᵥ dx - c'.s) (hl' : lam' = P *ᵥ dx' - s) :
    dt • (c.L.Lxx *ᵥ dx + c.L.Lxu *ᵥ du) - lam + c.F.Fxᵀ *ᵥ lam' + c.G.Cᵀ *ᵥ dnu = - c.Lxbar ∧
    dt • (c.L.Lxuᵀ *ᵥ dx + c.L.Luu *ᵥ du) + c.F.Fuᵀ *ᵥ lam' + c.G.Dᵀ *ᵥ dnu = - c.Lubar := by
  have hnu : dnu = diagonal (nuS sl nu) *ᵥ (c.G.C *ᵥ dx + c.G.D *ᵥ du) + tildeSub eps sl nu c.gbar := by
    funext j
    rw [hn j, hs]
    rw [Pi.add_apply, mulVec_diagonal]
    simp only [Pi.add_apply, Pi.neg_apply, tildeSub, nuS]
    have := hsl j
    field_simp
    ring
  obtain ⟨h1, h2, h3, h4, -⟩ := h
  have h2' : (gainData dt eps sl nu c P).G *ᵥ (c'.K *ᵥ dx) = - ((gainData dt eps sl nu c P).Hᵀ *ᵥ dx) := by
    rw [mulVec_mulVec, h2, neg_mulVec]
  have hGu : (gainData dt eps sl nu c P).G *ᵥ du =
      - ((gainData dt eps sl nu c P).Hᵀ *ᵥ dx) - (c.F.Fuᵀ *ᵥ (P *ᵥ c.xbar - s) + (gainData dt eps sl nu c P).Lu) := by
    rw [hu, mulVec_add, h2', h1]; module
  have hlam : lam = (gainData dt eps sl nu c P).F *ᵥ dx + (gainData dt eps sl nu c P).H *ᵥ du
      - c.F.Fxᵀ *ᵥ (s - P *ᵥ c.xbar) + (gainData dt eps sl nu c P).Lx := by
    rw [hl, h3, h4, hu, add_mulVec, ← mulVec_mulVec, mulVec_add]; module
  constructor
  · rw [hlam, hl', hx', hnu]
    unfold gainData
    simp only [matMul_real, smulm_real, mulDiag_eq, mulVec_real, add_mulVec, smul_mulVec, mulVec_add, mulVec_sub,
      ← mulVec_mulVec]
    module
  · have hGu' := hGu
    have hPs' : Pᵀ = P := hPs
    rw [hl', hx', hnu]
    unfold gainData at hGu'
    simp only [matMul_real, smulm_real, mulDiag_eq, mulVec_real, add_mulVec, smul_mulVec, mulVec_add, mulVec_sub,
      ← mulVec_mulVec, transpose_add, transpose_mul, transpose_smul, transpose_transpose, diagonal_transpose, hPs'] at hGu' ⊢
    linear_combination (norm := module) hGu'

/-! ## The recursion -/

/-- Every stage of a successful recursion was computed from the final contents of the next stage. -/
theorem bwLoop_chain {dt eps : ℝ} {v : Var n m p ℝ} {k : ℕ} {s : Vec n ℝ} {P : Mat n n ℝ}
    {co co' : (i : ℕ) → Coeff n (m i) (p i) ℝ} (h : bwLoop L cfg dt eps v k s P co = (true, co')) :
    (∀ i, k ≤ i → co' i = co i) ∧ ∀ i < k, bwStage L cfg dt eps (v.s i) (v.nu i) (co i)
      (if i + 1 < k then (co' (i + 1)).s else s) (if i + 1 < k then (co' (i + 1)).P else P) = some (co' i) := by
  induction k generalizing s P co with
  | zero => cases h; exact ⟨fun _ _ => rfl, by intro i hi; omega⟩
  | succ k ih =>
    unfold bwLoop at h
    split at h
    · cases h
    · rename_i c hc
      obtain ⟨h1, h2⟩ := ih h
      have hk : co' k = c := by rw [h1 k (le_refl _), Function.update_self]
      refine ⟨?_, ?_⟩
      · intro i hi
        rw [h1 i (by omega), Function.update_of_ne (by omega)]
      · intro i hi
        by_cases hik : i = k
        · subst hik
          rw [if_neg (by omega), if_neg (by omega), hc, hk]
        · rw [if_pos (by omega), if_pos (by omega)]
          have := h2 i (by omega)
          rw [Function.update_of_ne hik] at this
          by_cases h3 : i + 1 < k
          · rw [if_pos h3, if_pos h3] at this; exact this
          · have h4 : i + 1 = k := by omega
            rw [if_neg h3, if_neg h3] at this
            have es : (co' (i + 1)).s = c.s := by subst h4; rw [hk]
            have eP : (co' (i + 1)).P = c.P := by subst h4; rw [hk]
            rw [es, eP]; exact this

theorem backwardPass_chain {w w2 : Solver n m p ℝ} (h : backwardPass L N cfg S w = (true, w2)) :
    w2.var = w.var ∧ w2.eps = w.eps ∧ w2.term.V = w.term.V ∧ w2.term.Lxbar = w.term.Lxbar ∧
      w2.term.s = - w.term.Lxbar ∧ w2.term.P = w.term.V.Vxx ∧
      ∀ i < N, bwStage L cfg S.dt w.eps (w.var.s i) (w.var.nu i) (w.coeff i) (nextS N w2.coeff w2.term (i + 1))
        (nextP N w2.coeff w2.term (i + 1)) = some (w2.coeff i) := by
  unfold backwardPass at h
  dsimp only at h
  generalize hr : bwLoop L cfg S.dt w.eps w.var N (smulv (-1) w.term.Lxbar) w.term.V.Vxx w.coeff = r at h
  obtain ⟨b, co⟩ := r
  cases b with
  | false => simp at h
  | true =>
    rw [if_pos rfl] at h
    split at h
    · cases h
    · cases h
      refine ⟨rfl, rfl, rfl, rfl, ?_, rfl, ?_⟩
      · rw [smulv_real]; module
      · exact (bwLoop_chain hr).2

theorem gainMatrix_eq {dt eps : ℝ} {v : Var n m p ℝ} {co co' : (i : ℕ) → Coeff n (m i) (p i) ℝ} {term : TCoeff n ℝ} {i : ℕ}
    (hF : (co' i).F = (co i).F) (hG : (co' i).G = (co i).G) (hL : (co' i).L = (co i).L) :
    (gainData dt eps (v.s i) (v.nu i) (co i) (nextP N co' term (i + 1))).G = gainMatrix dt N v co' term i := by
  unfold gainData gainMatrix
  simp only [matMul_real, smulm_real, mulDiag_eq, hF, hG, hL]
  rfl

/-- The stage relations hold along a successful backward pass with nonsingular gain matrices. -/
theorem backwardPass_rel (hL : ExactGain L) {w w2 : Solver n m p ℝ} (hs : SymmHess N w.coeff w.term)
    (h : backwardPass L N cfg S w = (true, w2))
    (hu : ∀ i < N, IsUnit (gainMatrix S.dt N w.var w2.coeff w2.term i).det) :
    (∀ i ≤ N, (nextP N w2.coeff w2.term i).IsSymm) ∧ ∀ i < N, StageRel S.dt w.eps (w.var.s i) (w.var.nu i) (w.coeff i)
      (nextS N w2.coeff w2.term (i + 1)) (nextP N w2.coeff w2.term (i + 1)) (w2.coeff i) := by
  obtain ⟨c1, c2, c3, c4, c5, c6, c7⟩ := backwardPass_chain h
  have stage : ∀ i < N, (nextP N w2.coeff w2.term (i + 1)).IsSymm → StageRel S.dt w.eps (w.var.s i) (w.var.nu i)
      (w.coeff i) (nextS N w2.coeff w2.term (i + 1)) (nextP N w2.coeff w2.term (i + 1)) (w2.coeff i) := by
    intro i hi hsym
    obtain ⟨f1, f2, f3, -⟩ := bwStage_frame (c7 i hi)
    refine bwStage_rel hL hsym (hs.1 i hi).1 (hs.1 i hi).2 ?_ (c7 i hi)
    rw [gainMatrix_eq f1 f2 f3]
    exact hu i hi
  have symm : ∀ j ≤ N, (nextP N w2.coeff w2.term (N - j)).IsSymm := by
    intro j
    induction j with
    | zero =>
      intro _
      unfold nextP
      rw [if_neg (by omega), c6]
      exact hs.2
    | succ j ih =>
      intro hj
      have h1 := ih (by omega)
      have h2 := stage (N - (j + 1)) (by omega) (by rw [show N - (j + 1) + 1 = N - j by omega]; exact h1)
      unfold nextP
      rw [if_pos (by omega)]
      exact h2.symm
  have symm' : ∀ i ≤ N, (nextP N w2.coeff w2.term i).IsSymm := by
    intro i hi
    have := symm (N - i) (by omega)
    rwa [show N - (N - i) = i by omega] at this
  exact ⟨symm', fun i hi => stage i hi (symm' (i + 1) (by omega))⟩

/-- **C30.**  If the gain matrices met by the backward pass are nonsingular (so that they are solved exactly), the
direction of the forward pass satisfies every equation of the linearised perturbed KKT system. -/
theorem C30_newton (hL : ExactGain L) {w w2 w3 : Solver n m p ℝ} (hs : SymmHess N w.coeff w.term)
    (hsl : ∀ i < N, ∀ j, w.var.s i j ≠ 0) (hb : backwardPass L N cfg S w = (true, w2))
    (hu : ∀ i < N, IsUnit (gainMatrix S.dt N w.var w2.coeff w2.term i).det)
    (hf : forwardPass N cfg x0 w2 = (true, w3)) :
    NewtonSystem N S.dt w.eps x0 w.var w.coeff w.term w3.delta := by
  obtain ⟨hsym, hrel⟩ := backwardPass_rel hL hs hb hu
  obtain ⟨c1, c2, c3, c4, c5, c6, c7⟩ := backwardPass_chain hb
  have hd : w3.delta = forwardDelta N w2.eps x0 w2.var w2.coeff w2.term := by
    unfold forwardPass at hf
    exact congrArg (fun q => q.2.delta) hf.symm
  rw [c1, c2] at hd
  have lamEq : ∀ i, w3.delta.lam i = nextP N w2.coeff w2.term i *ᵥ w3.delta.x i - nextS N w2.coeff w2.term i := by
    intro i
    rw [hd]
    unfold nextP nextS
    dsimp only [forwardDelta]
    split <;> rfl
  have frame := fun i hi => bwStage_frame (c7 i hi)
  have hst : ∀ i < N, S.dt • ((w.coeff i).L.Lxx *ᵥ w3.delta.x i + (w.coeff i).L.Lxu *ᵥ w3.delta.u i) - w3.delta.lam i
        + (w.coeff i).F.Fxᵀ *ᵥ w3.delta.lam (i + 1) + (w.coeff i).G.Cᵀ *ᵥ w3.delta.nu i = - (w.coeff i).Lxbar ∧
      S.dt • ((w.coeff i).L.Lxuᵀ *ᵥ w3.delta.x i + (w.coeff i).L.Luu *ᵥ w3.delta.u i)
        + (w.coeff i).F.Fuᵀ *ᵥ w3.delta.lam (i + 1) + (w.coeff i).G.Dᵀ *ᵥ w3.delta.nu i = - (w.coeff i).Lubar := by
    intro i hi
    obtain ⟨f1, f2, f3, f4, f5, f6, f7⟩ := frame i hi
    have hlam := lamEq i
    unfold nextP nextS at hlam
    rw [if_pos hi, if_pos hi] at hlam
    have hdyn : w3.delta.x (i + 1) = (w.coeff i).F.Fx *ᵥ w3.delta.x i + (w.coeff i).F.Fu *ᵥ w3.delta.u i +
        (w.coeff i).xbar := by
      have := forwardDelta_dyn (N := N) (x0 := x0) (eps := w.eps) (v := w.var) (co := w2.coeff) (term := w2.term) i
      dsimp only at this
      rw [← hd, f1, f4] at this
      linear_combination (norm := module) -this
    have hin : w3.delta.s i = - ((w.coeff i).G.C *ᵥ w3.delta.x i + (w.coeff i).G.D *ᵥ w3.delta.u i + (w.coeff i).gbar) := by
      have := forwardDelta_ineq (N := N) (x0 := x0) (eps := w.eps) (v := w.var) (co := w2.coeff) (term := w2.term) i
      dsimp only at this
      rw [← hd, f2, f5] at this
      linear_combination (norm := module) this
    exact stage_newton (hrel i hi) (hsym (i + 1) (by omega)) (hsl i hi) (w3.delta.x i) (w3.delta.x (i + 1)) (w3.delta.lam i)
      (w3.delta.lam (i + 1)) (w3.delta.u i) (w3.delta.s i) (w3.delta.nu i) (by rw [hd]; rfl) hdyn hin
      (by intro j; rw [hd]; rfl) hlam (lamEq (i + 1))
  refine ⟨by rw [hd]; rfl, ?_, ?_, ?_, fun i hi => (hst i hi).1, fun i hi => (hst i hi).2, ?_⟩
  · intro i hi
    obtain ⟨f1, f2, f3, f4, f5, f6, f7⟩ := frame i hi
    rw [hd, ← f1, ← f4]
    exact forwardDelta_dyn i
  · intro i hi
    obtain ⟨f1, f2, f3, f4, f5, f6, f7⟩ := frame i hi
    rw [hd, ← f2, ← f5]
    exact forwardDelta_ineq i
  · intro i hi j
    have : w3.delta.nu i j = (-1) * (w.var.nu i j * (w3.delta.s i j + w.var.s i j) - w.eps) / w.var.s i j := by
      rw [hd]; rfl
    rw [this]
    have := hsl i hi j
    field_simp
    ring
  · rw [lamEq N]
    unfold nextP nextS
    rw [if_neg (by omega), if_neg (by omega), c6, c5]
    module

/-! ## C31 -/

/-- The quadratic form of the stage problem. -/
theorem gainData_quad {k q : ℕ} {dt eps : ℝ} {sl nu : Vec q ℝ} {c : Coeff n k q ℝ} {P : Mat n n ℝ} (hP : P.IsSymm)
    (x : Vec n ℝ) (u : Vec k ℝ) :
    x ⬝ᵥ ((gainData dt eps sl nu c P).F *ᵥ x) + 2 * (x ⬝ᵥ ((gainData dt eps sl nu c P).H *ᵥ u)) +
        u ⬝ᵥ ((gainData dt eps sl nu c P).G *ᵥ u) =
      dt * (x ⬝ᵥ (c.L.Lxx *ᵥ x) + 2 * (x ⬝ᵥ (c.L.Lxu *ᵥ u)) + u ⬝ᵥ (c.L.Luu *ᵥ u)) +
      (c.G.C *ᵥ x + c.G.D *ᵥ u) ⬝ᵥ (diagonal (nuS sl nu) *ᵥ (c.G.C *ᵥ x + c.G.D *ᵥ u)) +
      (c.F.Fx *ᵥ x + c.F.Fu *ᵥ u) ⬝ᵥ (P *ᵥ (c.F.Fx *ᵥ x + c.F.Fu *ᵥ u)) := by
  unfold gainData
  simp only [matMul_real, smulm_real, mulDiag_eq, add_mulVec, smul_mulVec, mulVec_add, ← mulVec_mulVec, dotProduct_add,
    add_dotProduct, dotProduct_smul, smul_eq_mul]
  have hd : (diagonal (nuS sl nu)).IsSymm := diagonal_transpose _
  have t : ∀ {a b : ℕ} (M : Mat a b ℝ) (y : Vec b ℝ) (z : Vec a ℝ), y ⬝ᵥ (Mᵀ *ᵥ z) = (M *ᵥ y) ⬝ᵥ z := by
    intro a b M y z
    rw [transpose_dot, dotProduct_comm]
  simp only [t]
  rw [symm_dot hd (c.G.D *ᵥ u) (c.G.C *ᵥ x), symm_dot hP (c.F.Fu *ᵥ u) (c.F.Fx *ᵥ x)]
  ring

theorem diag_quad_nonneg {q : ℕ} (d y : Vec q ℝ) (hd : ∀ j, 0 ≤ d j) : 0 ≤ y ⬝ᵥ (diagonal d *ᵥ y) := by
  unfold dotProduct
  refine sum_nonneg fun j _ => ?_
  rw [mulVec_diagonal]
  have := hd j
  nlinarith [mul_nonneg this (mul_self_nonneg (y j))]

/-- Convexity of a stage: the Hessian of the running cost is positive semidefinite with positive definite input block. -/
structure ConvexStage {k q : ℕ} (c : Coeff n k q ℝ) : Prop where
  xx : c.L.Lxx.IsSymm
  uu : c.L.Luu.PosDef
  joint : ∀ (x : Vec n ℝ) (u : Vec k ℝ), 0 ≤ x ⬝ᵥ (c.L.Lxx *ᵥ x) + 2 * (x ⬝ᵥ (c.L.Lxu *ᵥ u)) + u ⬝ᵥ (c.L.Luu *ᵥ u)

theorem gainData_posDef {k q : ℕ} {dt eps : ℝ} {sl nu : Vec q ℝ} {c : Coeff n k q ℝ} {P : Mat n n ℝ} (hdt : 0 < dt)
    (hsl : ∀ j, 0 < sl j) (hnu : ∀ j, 0 ≤ nu j) (hc : ConvexStage c) (hP : P.PosSemidef) :
    (gainData dt eps sl nu c P).G.PosDef := by
  obtain ⟨hPs, hPn⟩ := posSemidef_iff.1 hP
  obtain ⟨hLs, hLp⟩ := posDef_iff.1 hc.uu
  rw [posDef_iff]
  refine ⟨gainData_G_symm hPs hLs, fun u hu => ?_⟩
  have := gainData_quad (dt := dt) (eps := eps) (sl := sl) (nu := nu) (c := c) hPs 0 u
  simp only [mulVec_zero, zero_dotProduct, mul_zero, zero_add] at this
  rw [this]
  have h1 := mul_pos hdt (hLp u hu)
  have h2 := diag_quad_nonneg (nuS sl nu) (c.G.D *ᵥ u) (fun j => div_nonneg (hnu j) (hsl j).le)
  have h3 := hPn (c.F.Fu *ᵥ u)
  linarith

theorem posDef_isUnit {k : ℕ} {A : Mat k k ℝ} (h : A.PosDef) : IsUnit A.det := by
  by_contra hn
  have h0 : A.det = 0 := by simpa using hn
  obtain ⟨v, hv, hA⟩ := (exists_mulVec_eq_zero_iff).2 h0
  have := (posDef_iff.1 h).2 v hv
  rw [hA, dotProduct_zero] at this
  exact lt_irrefl _ this

theorem bwStage_convex (hL : ExactGain L) {k q : ℕ} {dt eps : ℝ} {sl nu : Vec q ℝ} {c : Coeff n k q ℝ} (s : Vec n ℝ)
    {P : Mat n n ℝ} (hdt : 0 < dt) (hsl : ∀ j, 0 < sl j) (hnu : ∀ j, 0 ≤ nu j) (hc : ConvexStage c) (hP : P.PosSemidef) :
    ∃ c', bwStage L cfg dt eps sl nu c s P = some c' ∧ c'.P.PosSemidef := by
  have hG := gainData_posDef (eps := eps) hdt hsl hnu hc hP
  obtain ⟨hPs, hPn⟩ := posSemidef_iff.1 hP
  have hsome : ∃ c', bwStage L cfg dt eps sl nu c s P = some c' := by
    unfold bwStage solveGains
    dsimp only
    rw [hL.ok _ hG]
    by_cases hk : 0 < k
    · simp [hk]
    · simp [hk]
  obtain ⟨c', hc'⟩ := hsome
  refine ⟨c', hc', ?_⟩
  have hr := bwStage_rel hL hPs hc.xx (posDef_iff.1 hc.uu).1 (posDef_isUnit hG) hc'
  rw [posSemidef_iff]
  refine ⟨hr.symm, fun x => ?_⟩
  have hq := gainData_quad (dt := dt) (eps := eps) (sl := sl) (nu := nu) (c := c) hPs x (c'.K *ᵥ x)
  have h1 : x ⬝ᵥ (c'.P *ᵥ x) = x ⬝ᵥ ((gainData dt eps sl nu c P).F *ᵥ x) +
      x ⬝ᵥ ((gainData dt eps sl nu c P).H *ᵥ (c'.K *ᵥ x)) := by
    rw [hr.P, add_mulVec, dotProduct_add, mulVec_mulVec]
  have h2 : (c'.K *ᵥ x) ⬝ᵥ ((gainData dt eps sl nu c P).G *ᵥ (c'.K *ᵥ x)) =
      - (x ⬝ᵥ ((gainData dt eps sl nu c P).H *ᵥ (c'.K *ᵥ x))) := by
    rw [mulVec_mulVec x (gainData dt eps sl nu c P).G, hr.Gain, neg_mulVec, dotProduct_neg, transpose_dot]
  have h3 := mul_nonneg hdt.le (hc.joint x (c'.K *ᵥ x))
  have h4 := diag_quad_nonneg (nuS sl nu) (c.G.C *ᵥ x + c.G.D *ᵥ (c'.K *ᵥ x)) (fun j => div_nonneg (hnu j) (hsl j).le)
  have h5 := hPn (c.F.Fx *ᵥ x + c.F.Fu *ᵥ (c'.K *ᵥ x))
  linarith

theorem bwLoop_succeeds (I : Mat n n ℝ → Prop) {dt eps : ℝ} {v : Var n m p ℝ} {k : ℕ} {s : Vec n ℝ} {P : Mat n n ℝ}
    {co : (i : ℕ) → Coeff n (m i) (p i) ℝ} (hP : I P)
    (hstep : ∀ i < k, ∀ s P, I P → ∃ c', bwStage L cfg dt eps (v.s i) (v.nu i) (co i) s P = some c' ∧ I c'.P) :
    (bwLoop L cfg dt eps v k s P co).1 = true := by
  induction k generalizing s P co with
  | zero => rfl
  | succ k ih =>
    obtain ⟨c', h1, h2⟩ := hstep k (by omega) s P hP
    unfold bwLoop
    rw [h1]
    refine ih h2 ?_
    intro i hi s' P' hP'
    rw [Function.update_of_ne (by omega)]
    exact hstep i (by omega) s' P' hP'

theorem not_bad_real {k : ℕ} (v : Vec k ℝ) : vecBad v = false := by simp [vecBad]

theorem not_bad_real' {k l : ℕ} (A : Mat k l ℝ) : matBad A = false := by simp [matBad, not_bad_real]

theorem backwardPass_true {w : Solver n m p ℝ}
    (h : (bwLoop L cfg S.dt w.eps w.var N (smulv (-1) w.term.Lxbar) w.term.V.Vxx w.coeff).1 = true) :
    (backwardPass L N cfg S w).1 = true := by
  unfold backwardPass
  dsimp only
  rw [h, if_pos rfl]
  have h1 : ∀ {k q : ℕ} (c : Coeff n k q ℝ), c.containsNaN = false := by
    intro k q c; simp [Coeff.containsNaN, not_bad_real, not_bad_real']
  have h2 : ∀ t : TCoeff n ℝ, t.containsNaN = false := by
    intro t; simp [TCoeff.containsNaN, not_bad_real, not_bad_real']
  simp [h1, h2]

/-- Convexity of the quadratic model: convex stages below the horizon and a positive semidefinite terminal Hessian. -/
def ConvexModel (N : ℕ) (co : (i : ℕ) → Coeff n (m i) (p i) ℝ) (term : TCoeff n ℝ) : Prop :=
  (∀ i < N, ConvexStage (co i)) ∧ term.V.Vxx.PosSemidef

/-- **C31.**  For a convex model and positive slacks and multipliers the backward pass succeeds, every gain matrix is
positive definite and every `P` is positive semidefinite. -/
theorem C31_positive_definite (hL : ExactGain L) {w : Solver n m p ℝ} (hdt : 0 < S.dt) (hw : w.var.Pos N)
    (hc : ConvexModel N w.coeff w.term) :
    ∃ w2, backwardPass L N cfg S w = (true, w2) ∧ (∀ i ≤ N, (nextP N w2.coeff w2.term i).PosSemidef) ∧
      ∀ i < N, (gainMatrix S.dt N w.var w2.coeff w2.term i).PosDef := by
  have hstep : ∀ i < N, ∀ s P, P.PosSemidef → ∃ c', bwStage L cfg S.dt w.eps (w.var.s i) (w.var.nu i) (w.coeff i) s P =
      some c' ∧ c'.P.PosSemidef := fun i hi s P hP =>
    bwStage_convex hL s hdt (hw.1 i hi) (fun j => (hw.2 i hi j).le) (hc.1 i hi) hP
  have ht := backwardPass_true (bwLoop_succeeds (L := L) (cfg := cfg) (dt := S.dt) (eps := w.eps) (v := w.var)
    (s := smulv (-1) w.term.Lxbar) (co := w.coeff) (fun P => P.PosSemidef) hc.2 hstep)
  generalize hr : backwardPass L N cfg S w = r at ht
  obtain ⟨b, w2⟩ := r
  dsimp only at ht
  subst ht
  obtain ⟨c1, c2, c3, c4, c5, c6, c7⟩ := backwardPass_chain hr
  have psd : ∀ j ≤ N, (nextP N w2.coeff w2.term (N - j)).PosSemidef := by
    intro j
    induction j with
    | zero =>
      intro _
      unfold nextP
      rw [if_neg (by omega), c6]
      exact hc.2
    | succ j ih =>
      intro hj
      have h1 := ih (by omega)
      rw [show N - j = N - (j + 1) + 1 by omega] at h1
      obtain ⟨c', h2, h3⟩ := hstep (N - (j + 1)) (by omega) (nextS N w2.coeff w2.term (N - (j + 1) + 1)) _ h1
      rw [c7 (N - (j + 1)) (by omega)] at h2
      cases h2
      unfold nextP
      rw [if_pos (by omega)]
      exact h3
  have psd' : ∀ i ≤ N, (nextP N w2.coeff w2.term i).PosSemidef := by
    intro i hi
    have := psd (N - i) (by omega)
    rwa [show N - (N - i) = i by omega] at this
  refine ⟨w2, rfl, psd', fun i hi => ?_⟩
  obtain ⟨f1, f2, f3, -⟩ := bwStage_frame (c7 i hi)
  rw [← gainMatrix_eq (eps := w.eps) f1 f2 f3]
  exact gainData_posDef hdt (hw.1 i hi) (fun j => (hw.2 i hi j).le) (hc.1 i hi) (psd' (i + 1) (by omega))

theorem forwardPass_true (w : Solver n m p ℝ) :
    forwardPass N cfg x0 w = (true, { w with delta := forwardDelta N w.eps x0 w.var w.coeff w.term }) := by
  unfold forwardPass
  simp [Var.containsNaN, not_bad_real]

/-- **C30** for convex models: no condition on the gain matrices is needed. -/
theorem C30_convex (hL : ExactGain L) {w : Solver n m p ℝ} (hdt : 0 < S.dt) (hw : w.var.Pos N)
    (hc : ConvexModel N w.coeff w.term) :
    ∃ w2 w3, backwardPass L N cfg S w = (true, w2) ∧ forwardPass N cfg x0 w2 = (true, w3) ∧
      NewtonSystem N S.dt w.eps x0 w.var w.coeff w.term w3.delta := by
  obtain ⟨w2, hb, _, hg⟩ := C31_positive_definite (cfg := cfg) hL hdt hw hc
  refine ⟨w2, _, hb, forwardPass_true w2, ?_⟩
  exact C30_newton hL ⟨fun i hi => ⟨(hc.1 i hi).xx, (posDef_iff.1 (hc.1 i hi).uu).1⟩, (posSemidef_iff.1 hc.2).1⟩
    (fun i hi j => (hw.1 i hi j).ne') hb (fun i hi => posDef_isUnit (hg i hi)) (forwardPass_true w2)

end Nmpc.FMPC
