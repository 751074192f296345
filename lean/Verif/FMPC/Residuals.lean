import Verif.FMPC.LQ

/-!
# FMPC: residuals along one iteration (helper lemmas for C101)
-/

set_option linter.unusedSectionVars false

namespace Nmpc.FMPC

open DDP (FDeriv LDeriv VDeriv timeAt)
open Matrix Finset

section Residuals
variable {n : ℕ} {m p : ℕ → ℕ} {L : GainSolver ℝ} {N : ℕ} {cfg : Config ℝ} {S : Stages n m p ℝ} {x0 : Vec n ℝ}

/-- A convex quadratic program: quadratic costs, affine dynamics and affine inequality constraints. -/
structure IsQP (N : ℕ) (S : Stages n m p ℝ) (D : LQData n m) (C : (i : ℕ) → Mat (p i) n ℝ)
    (E : (i : ℕ) → Mat (p i) (m i) ℝ) (c : (i : ℕ) → Vec (p i) ℝ) : Prop where
  constraints : AffineConstraints S D.A D.B D.a C E c
  dl : ∀ i x u b, S.dl i x u b =
    ⟨D.Q i *ᵥ x + D.M i *ᵥ u + D.q i, (D.M i)ᵀ *ᵥ x + D.R i *ᵥ u + D.r i, D.Q i, D.R i, D.M i⟩
  dφ : ∀ x b, S.dφ x b = { Vx := D.Qf *ᵥ x + D.qf, Vxx := D.Qf }
  convex : D.Convex N

theorem IsQP.costs {D : LQData n m} {C : (i : ℕ) → Mat (p i) n ℝ} {E : (i : ℕ) → Mat (p i) (m i) ℝ}
    {c : (i : ℕ) → Vec (p i) ℝ} (h : IsQP N S D C E c) : ConvexCosts N S := by
  refine ⟨fun i hi x u b => ?_, fun i hi x u b => ?_, fun i hi x u b => ?_, fun x b => ?_⟩
  · rw [h.dl]; exact h.convex.Q i hi
  · rw [h.dl]; exact h.convex.R i hi
  · rw [h.dl]; exact h.convex.joint i hi
  · rw [h.dφ]; exact h.convex.Qf

/-- Stationarity residual with respect to the state of step `i`. -/
def statxRes (dt : ℝ) (D : LQData n m) (C : (i : ℕ) → Mat (p i) n ℝ) (v : Var n m p ℝ) (i : ℕ) : Vec n ℝ :=
  dt • (D.Q i *ᵥ v.x i + D.M i *ᵥ v.u i + D.q i) - v.lam i + (D.A i)ᵀ *ᵥ v.lam (i + 1) + (C i)ᵀ *ᵥ v.nu i

/-- Stationarity residual with respect to the input of step `i`. -/
def statuRes (dt : ℝ) (D : LQData n m) (E : (i : ℕ) → Mat (p i) (m i) ℝ) (v : Var n m p ℝ) (i : ℕ) : Vec (m i) ℝ :=
  dt • ((D.M i)ᵀ *ᵥ v.x i + D.R i *ᵥ v.u i + D.r i) + (D.B i)ᵀ *ᵥ v.lam (i + 1) + (E i)ᵀ *ᵥ v.nu i

/-- Stationarity residual of the terminal state. -/
def termRes (D : LQData n m) (N : ℕ) (v : Var n m p ℝ) : Vec n ℝ := D.Qf *ᵥ v.x N + D.qf - v.lam N

/-- The step of one iteration of a convex problem: Newton direction and step lengths. -/
theorem iteration_step (hL : ExactGain L) (hdt : 0 < S.dt) (hc : ConvexCosts N S) {iter : ℕ} {w w' : Solver n m p ℝ}
    (hw : w.var.Pos N) (h : procOnce L N cfg S x0 iter w = .ok (w', .iterationContinued)) :
    NewtonSystem N S.dt w'.eps x0 w.var (fun i => if i < N then calcCoeff S w.var i (w.coeff i) else w.coeff i)
        (calcTerm N S w.var w.term) w'.delta ∧
    w'.var.Pos N ∧ ∃ aS aNu : ℝ, 0 < aS ∧ aS ≤ 1 ∧ 0 < aNu ∧ aNu ≤ 1 ∧ aNu = alphaMax N w.var.nu w'.delta.nu ∧
      (cfg.enableLineSearch = false → aS = alphaMax N w.var.s w'.delta.s) ∧
      (∀ i < N, w'.var.s i = w.var.s i + aS • w'.delta.s i ∧ w'.var.nu i = w.var.nu i + aNu • w'.delta.nu i ∧
        w'.var.u i = w.var.u i + aS • w'.delta.u i) ∧
      ∀ i ≤ N, w'.var.x i = w.var.x i + aS • w'.delta.x i ∧ w'.var.lam i = w.var.lam i + aNu • w'.delta.lam i := by
  refine ⟨((C30_iteration hL hdt hc hw h).resolve_left (by simp)).2, ?_⟩
  have := procOnce_out (L := L) (N := N) (cfg := cfg) (S := S) (x0 := x0) iter w
  rw [h] at this
  generalize hx : (Res.ok (w', .iterationContinued) : Res (Solver n m p ℝ × Status)) = x at this
  cases this with
  | ubEps => cases hx
  | succeeded => cases hx
  | backward => cases hx
  | forward => cases hx
  | update e he hk w2 hb w3 hf r hr =>
    cases r with
    | ok r =>
      obtain ⟨b, w4⟩ := r
      have h1 := (backwardPass_frame (L := L) (N := N) (cfg := cfg) (S := S) (traced N x0 iter (prepared N S w e))).1
      rw [hb] at h1
      have h2 := (forwardPass_frame (N := N) (cfg := cfg) (x0 := x0) w2).1
      rw [hf] at h2
      have hv3 : w3.var = w.var := h2.trans h1
      have hw3 : w3.var.Pos N := by rw [hv3]; exact hw
      have hout := updateVariables_out (N := N) (cfg := cfg) (S := S) (x0 := x0) w3
      obtain ⟨rfl, hpos, -⟩ := updateVariables_pos hw3 hr
      cases hx
      refine ⟨hpos, ?_⟩
      obtain ⟨s1, s2, s3⟩ := alphaMax_spec w3.var.s w3.delta.s hw3.1
      obtain ⟨n1, n2, n3⟩ := alphaMax_spec w3.var.nu w3.delta.nu hw3.2
      rw [hr] at hout
      generalize hy : (Res.ok (true, w4) : Res (Bool × Solver n m p ℝ)) = y at hout
      cases hout with
      | reject => cases hy
      | step hh a mt hl =>
        cases hy
        obtain ⟨a0, a1, aE, -⟩ := C36_step s1 s2 hl
        have es : ∀ i < N, (applyStep w3.var w3.delta a (alphaMax N w3.var.nu w3.delta.nu)).s i =
            w3.var.s i + a • w3.delta.s i := fun i hi => repair_of_pos _ fun j => step_pos (hw3.1 i hi j) a0 a1 (s3 i hi j)
        have en : ∀ i < N, (applyStep w3.var w3.delta a (alphaMax N w3.var.nu w3.delta.nu)).nu i =
            w3.var.nu i + alphaMax N w3.var.nu w3.delta.nu • w3.delta.nu i := fun i hi =>
          repair_of_pos _ fun j => step_pos (hw3.2 i hi j) n1 (le_refl _) (n3 i hi j)
        rw [hv3] at s2 n1 n2 es en a1 aE
        dsimp only
        rw [hv3]
        exact ⟨a, _, a0, a1.trans s2, n1, n2, rfl, aE, fun i hi => ⟨es i hi, en i hi, rfl⟩, fun i _ => ⟨rfl, rfl⟩⟩
      | ub => cases hy
      | diverge => cases hy
    | _ => cases hx

/-- Full step: if every component that decreases keeps 0.5 percent of its value in a full step. -/
theorem alphaMax_one {v dv : (i : ℕ) → Vec (p i) ℝ} (h : ∀ i < N, ∀ j, 5 / 1000 * v i j ≤ v i j + dv i j) :
    alphaMax N v dv = 1 := by
  have inner : ∀ i < N, ∀ l : List (Fin (p i)), l.foldl (fun a j =>
      if ltb (dv i j) 0 then fmin a ((-1) * lit (995 / 1000) * v i j / dv i j) else a) (1 : ℝ) = 1 := by
    intro i hi l
    induction l with
    | nil => rfl
    | cons j l ih =>
      rw [List.foldl_cons]
      by_cases hd : dv i j < 0
      · have hq : (-1 : ℝ) * lit (995 / 1000) * v i j / dv i j = 995 / 1000 * v i j / (- dv i j) := by
          rw [lit_real]; push_cast
          have : dv i j ≠ 0 := ne_of_lt hd
          field_simp
        have h1 : (1 : ℝ) ≤ 995 / 1000 * v i j / (- dv i j) := by
          rw [le_div_iff₀ (by linarith)]
          have := h i hi j
          linarith
        rw [if_pos (by simpa using hd), hq, fmin_real, min_eq_left h1]
        exact ih
      · rw [if_neg (by simpa using hd)]
        exact ih
  have := forUp_invariant (n := N)
    (body := fun i a => (List.finRange (p i)).foldl (fun a j =>
      if ltb (dv i j) 0 then fmin a ((-1) * lit (995 / 1000) * v i j / dv i j) else a) a) (s := (1 : ℝ))
    (fun _ a => a = 1) rfl (by
      intro i a hi ha
      rw [ha]
      exact inner i hi _)
  exact this

theorem dot_transposeMul {k l : ℕ} (A : Mat k l ℝ) (x : Vec l ℝ) (y : Vec k ℝ) : x ⬝ᵥ (Aᵀ *ᵥ y) = y ⬝ᵥ (A *ᵥ x) := by
  rw [mulVec_transpose, dotProduct_comm, ← dotProduct_mulVec]

/-- The second-order term of the complementarity products of a Newton direction at a point without primal and dual
residuals. -/
theorem newton_gap {dt eps : ℝ} {v d : Var n m p ℝ} {co : (i : ℕ) → Coeff n (m i) (p i) ℝ} {term : TCoeff n ℝ}
    (h : NewtonSystem N dt eps x0 v co term d) (hx0 : x0 - v.x 0 = 0) (hdyn : ∀ i < N, (co i).xbar = 0)
    (hin : ∀ i < N, (co i).gbar = 0) (hlx : ∀ i < N, (co i).Lxbar = 0) (hlu : ∀ i < N, (co i).Lubar = 0)
    (ht : term.Lxbar = 0) :
    ∑ i ∈ range N, d.nu i ⬝ᵥ d.s i = (∑ i ∈ range N, dt * (d.x i ⬝ᵥ ((co i).L.Lxx *ᵥ d.x i) +
      2 * (d.x i ⬝ᵥ ((co i).L.Lxu *ᵥ d.u i)) + d.u i ⬝ᵥ ((co i).L.Luu *ᵥ d.u i))) + d.x N ⬝ᵥ (term.V.Vxx *ᵥ d.x N) := by
  have key : ∀ k ≤ N, ∑ i ∈ range k, d.nu i ⬝ᵥ d.s i = (∑ i ∈ range k, dt * (d.x i ⬝ᵥ ((co i).L.Lxx *ᵥ d.x i) +
      2 * (d.x i ⬝ᵥ ((co i).L.Lxu *ᵥ d.u i)) + d.u i ⬝ᵥ ((co i).L.Luu *ᵥ d.u i))) + d.lam k ⬝ᵥ d.x k - d.lam 0 ⬝ᵥ d.x 0 := by
    intro k
    induction k with
    | zero => intro _; simp
    | succ k ih =>
      intro hk
      have hk' : k < N := hk
      rw [sum_range_succ, sum_range_succ, ih (by omega)]
      have e1 := h.ineq k hk'
      rw [hin k hk', neg_zero] at e1
      have e2 := h.dyn k hk'
      rw [hdyn k hk', neg_zero] at e2
      have e3 := congrArg (d.x k ⬝ᵥ ·) (h.statx k hk')
      have e4 := congrArg (d.u k ⬝ᵥ ·) (h.statu k hk')
      rw [hlx k hk', neg_zero, dotProduct_zero, dotProduct_add, dotProduct_add, dotProduct_sub, dotProduct_smul,
        dotProduct_add, dot_transposeMul, dot_transposeMul, smul_eq_mul] at e3
      rw [hlu k hk', neg_zero, dotProduct_zero, dotProduct_add, dotProduct_add, dotProduct_smul,
        dotProduct_add, dot_transposeMul, dot_transposeMul, dot_transposeMul, smul_eq_mul] at e4
      have e5 := congrArg (d.nu k ⬝ᵥ ·) e1
      rw [dotProduct_zero, dotProduct_add, dotProduct_add] at e5
      have e6 := congrArg (d.lam (k + 1) ⬝ᵥ ·) e2
      rw [dotProduct_zero, dotProduct_sub, dotProduct_add] at e6
      rw [dotProduct_comm (d.x k) (d.lam k)] at e3
      linarith
  rw [key N le_rfl]
  have e1 := h.term
  rw [ht, neg_zero, sub_eq_zero] at e1
  have e2 := h.init
  rw [hx0] at e2
  rw [← e1, e2, dotProduct_zero, dotProduct_comm (d.x N)]
  ring

end Residuals
end Nmpc.FMPC
