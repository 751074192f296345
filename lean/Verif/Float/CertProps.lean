import Verif.Float.Kkt
import Verif.Float.FmpcProps

/-!
# Optimality certificates in floating-point arithmetic (C97)
-/

set_option linter.unusedSectionVars false

namespace Nmpc

open Matrix

variable {α : Type} [Add α] [Sub α] [Mul α] [Div α] [Neg α] [Zero α] [One α] [FOps α] {u : ℝ}

namespace BoxQP

variable {n : ℕ} {L : LLT α} {c : Config α} {o : Obj n α} {a : Args n α} {r : Result n α}
  {F : FloatLaws α u} {H : Mat n n ℝ} {g lo hi : Vec n ℝ}

/-- The data of the program are numbers (the initial guess is arbitrary). -/
structure FiniteData (F : FloatLaws α u) (a : Args n α) (H : Mat n n ℝ) (g lo hi : Vec n ℝ) : Prop where
  H : ∀ i j, F.val (a.H i j) = .fin (H i j)
  g : ∀ i, F.val (a.g i) = .fin (g i)
  lower : ∀ i, F.val (a.lower i) = .fin (lo i)
  upper : ∀ i, F.val (a.upper i) = .fin (hi i)
  le : ∀ i, lo i ≤ hi i

theorem FiniteData.irrefl (F : FloatLaws α u) (b : α) : ltb b b = false := by
  rw [← Bool.not_eq_true, F.ltb_iff]
  cases F.val b <;> simp [FVal.Lt]

/-- Without NaN, no violation means to be in the box. -/
theorem FiniteData.inBox (D : FiniteData F a H g lo hi) {v : Vec n α} (hv : NoViolation a.lower a.upper v) (i : Fin n) :
    F.val (v i) = .nan ∨ ∃ x, F.val (v i) = .fin x ∧ lo i ≤ x ∧ x ≤ hi i := by
  obtain ⟨h1, h2⟩ := hv i
  have h3 : ltb (a.upper i) (a.lower i) = false := by
    rw [← Bool.not_eq_true, F.ltb_fin (D.upper i) (D.lower i)]
    exact not_lt.2 (D.le i)
  have h2 := h2 h3
  rw [← Bool.not_eq_true, F.ltb_iff, D.lower i] at h1
  rw [← Bool.not_eq_true, F.ltb_iff, D.upper i] at h2
  cases hv : F.val (v i) with
  | nan => exact .inl rfl
  | ninf => rw [hv] at h1; simp [FVal.Lt] at h1
  | pinf => rw [hv] at h2; simp [FVal.Lt] at h2
  | fin x =>
    rw [hv] at h1 h2
    exact .inr ⟨x, rfl, not_lt.1 h1, not_lt.1 h2⟩

/-- **C97**, box: whatever the return code, every component of the result is NaN or lies in the box, without any
tolerance. -/
theorem C97_box (D : FiniteData F a H g lo hi) (h : solve L c o a = .ok r) (i : Fin n) :
    F.val (r.x i) = .nan ∨ ∃ x, F.val (r.x i) = .fin x ∧ lo i ≤ x ∧ x ≤ hi i :=
  D.inBox (C01_result_in_box (FiniteData.irrefl F) h) i

/-- Sign of the computed gradient at a clamped component. -/
theorem FiniteData.flag_sign (D : FiniteData F a H g lo hi) {v grad : Vec n α} {i : Fin n} {x G y : ℝ}
    (hx : F.val (v i) = .fin x) (hG : F.val (grad i) = .fin G) (hy : lo i ≤ y ∧ y ≤ hi i)
    (h : clampedFlags a v grad i = true) : 0 ≤ G * (y - x) := by
  simp only [clampedFlags, Bool.or_eq_true, Bool.and_eq_true] at h
  rcases h with ⟨h1, h2⟩ | ⟨h1, h2⟩
  · rw [F.eqb_iff, hx, D.lower i] at h1
    rw [F.ltb_fin F.zero hG] at h2
    have h1 : x = lo i := h1
    exact mul_nonneg h2.le (by linarith [hy.1])
  · rw [F.eqb_iff, hx, D.upper i] at h1
    rw [F.ltb_fin hG F.zero] at h2
    have h1 : x = hi i := h1
    exact mul_nonneg_of_nonpos_of_nonpos h2.le (by linarith [hy.2])

/-- Bound on the rounding error of component `i` of the gradient. -/
noncomputable def gradErr (u : ℝ) (H : Mat n n ℝ) (g x : Vec n ℝ) (i : Fin n) : ℝ :=
  102 / 100 * ((n + 3 : ℕ) * u) * (|g i| + ∑ j, |H i j| * |x j|)

theorem gradErr_of (hu : 0 ≤ u) (hn : (n + 3 : ℕ) * u ≤ 1 / 100) {G : ℝ} {x : Vec n ℝ} {i : Fin n}
    (h : |G - (g + H *ᵥ x) i| ≤ ((1 + u) ^ (n + 3) - 1) * (|g i| + ∑ j, |H i j| * |x j|)) :
    |G - (g + H *ᵥ x) i| ≤ gradErr u H g x i := by
  refine h.trans (mul_le_mul_of_nonneg_right (pow_u_le hu hn) ?_)
  exact add_nonneg (abs_nonneg _) (Finset.sum_nonneg fun j _ => by positivity)

/-- **C97**, all-clamped exit: in every arithmetic of the standard model, if `solve` returns code 6 then the result
consists of numbers, lies in the box, and is optimal up to the rounding error of the gradient. -/
theorem C97_all_clamped (A : ArithLaws F) (D : FiniteData F a H g lo hi) (hH : H.PosSemidef)
    (hn : (n + 3 : ℕ) * u ≤ 1 / 100) (h : solve L c o a = .ok r) (h6 : r.obj.retval = 6) :
    ∃ x : Vec n ℝ, (∀ i, F.val (r.x i) = .fin (x i)) ∧ InBox lo hi x ∧
      ∀ y, InBox lo hi y → qp H g x ≤ qp H g y + ∑ i, gradErr u H g x i * |y i - x i| := by
  obtain ⟨s, hs, rfl⟩ := solve_rule (fun s => NoViolation a.lower a.upper s.x)
    (fun s => s.retval = 6 → ∀ i, clampedFlags a s.x (gradient a s.x) i = true) (clampBox_noViolation (FiniteData.irrefl F) _ _ _)
    (fun s s' hs h => by
      have := mainStep_out L c a s
      rw [h] at this
      cases this with
      | next _ _ _ _ _ _ ls hl =>
        show NoViolation _ _ ls.xc
        rw [(lineSearch_candidate hl).1]
        exact clampBox_noViolation (FiniteData.irrefl F) _ _ _)
    (fun s s' _ h => by
      have := mainStep_out L c a s
      rw [h] at this
      cases this with
      | all hf => exact fun _ => hf
      | _ => intro h; exact absurd h (by simp)) h
  have hf := hs h6
  have hb := C97_box D h
  change ∀ i, F.val (s.x i) = .nan ∨ _ at hb
  have hfin : ∀ i, ∃ x, F.val (s.x i) = .fin x ∧ lo i ≤ x ∧ x ≤ hi i := by
    intro i
    rcases hb i with hnan | h
    · have := hf i
      simp only [clampedFlags, Bool.or_eq_true, Bool.and_eq_true, F.eqb_iff, hnan] at this
      simp [FVal.Eq] at this
    · exact h
  choose x hx hxl hxu using hfin
  refine ⟨x, hx, fun i => ⟨hxl i, hxu i⟩, fun y hy => ?_⟩
  choose G hG hGe using gradient_float A D.H D.g hx
  have := qp_near_opt (w := 0) (y := y) hH (le_refl 0) (fun i => gradErr_of F.u_nonneg hn (hGe i))
    (fun i => by simpa using D.flag_sign (hx i) (hG i) (hy i) (hf i)) (by simp)
  simpa using this

/-- **C97**, small-gradient exit: in every arithmetic of the standard model, if `solve` returns code 5 then the result
consists of numbers, lies in the box, and is optimal up to `grad_thre` times the distance and the rounding error of the
gradient. -/
theorem C97_small_gradient (A : ArithLaws F) (D : FiniteData F a H g lo hi) (hH : H.PosSemidef)
    (hn : (n + 3 : ℕ) * u ≤ 1 / 100) {θ : ℝ} (hθ : F.val c.gradThre = .fin θ) (h : solve L c o a = .ok r)
    (h5 : r.obj.retval = 5) :
    ∃ x : Vec n ℝ, (∀ i, F.val (r.x i) = .fin (x i)) ∧ InBox lo hi x ∧
      ∀ y, InBox lo hi y → qp H g x ≤ qp H g y +
        ((1 + (n + 3 : ℕ) * u) * |θ| * Real.sqrt ((y - x) ⬝ᵥ (y - x)) + ∑ i, gradErr u H g x i * |y i - x i|) := by
  obtain ⟨s, hs, rfl⟩ := solve_rule (fun _ => True)
    (fun s => s.retval = 5 → ltb (freeGradNorm (gradient a s.x)
        (idxs fun i => !clampedFlags a s.x (gradient a s.x) i)) (c.gradThre * c.gradThre) = true) trivial
    (fun _ _ _ _ => trivial)
    (fun s s' _ h => by
      have := mainStep_out L c a s
      rw [h] at this
      cases this with
      | grad _ _ hlt => exact fun _ => hlt
      | _ => intro h; exact absurd h (by simp)) h
  have hlt := hs h5
  obtain ⟨η, hη, hth⟩ := F.mul_fin hθ hθ
  obtain ⟨hfree, hsum⟩ := freeGradNorm_float F hth hlt
  have hb := C97_box D h
  change ∀ i, F.val (s.x i) = .nan ∨ _ at hb
  have hfin : ∀ i, ∃ x, F.val (s.x i) = .fin x ∧ lo i ≤ x ∧ x ≤ hi i := by
    intro i
    rcases hb i with hnan | h
    · exfalso
      -- a NaN component is free and makes its gradient NaN
      have hfl : clampedFlags a s.x (gradient a s.x) i = false := by
        rw [← Bool.not_eq_true]
        simp only [clampedFlags, Bool.or_eq_true, Bool.and_eq_true, F.eqb_iff, hnan]
        simp [FVal.Eq]
      obtain ⟨z, hz⟩ := hfree i (mem_idxs.2 (by simp [hfl]))
      have h1 : F.val (FOps.mulVec a.H s.x i) = .nan := (A.mulVec a.H s.x i).nan i (.inr hnan)
      have h2 := F.add (a.g i) (FOps.mulVec a.H s.x i)
      rw [h1] at h2
      have h3 : F.val (gradient a s.x i) = .nan := h2.nan_right
      rw [h3] at hz
      cases hz
    · exact h
  choose x hx hxl hxu using hfin
  refine ⟨x, hx, fun i => ⟨hxl i, hxu i⟩, fun y hy => ?_⟩
  choose G hG hGe using gradient_float A D.H D.g hx
  have hu := F.u_nonneg
  set f : Fin n → Bool := fun i => !clampedFlags a s.x (gradient a s.x) i with hfdef
  set w : Vec n ℝ := fun i => if f i then G i else 0 with hw
  have hlen : (idxs f).length ≤ n := by
    refine (List.length_filter_le _ _).trans ?_
    simp
  have hww : w ⬝ᵥ w ≤ ((1 + (n + 3 : ℕ) * u) * |θ|) ^ 2 := by
    have h1 := hsum G (fun i _ => hG i)
    have h2 : ((idxs f).map fun i => G i * G i).sum = w ⬝ᵥ w := by
      rw [sum_idxs_list]
      refine Finset.sum_congr rfl fun i _ => ?_
      simp only [hw]
      split <;> simp
    rw [h2] at h1
    have h3 : (1 + u) ^ ((idxs f).length + 1) - 1 ≤ 102 / 100 * ((n + 3 : ℕ) * u) := by
      refine le_trans ?_ (pow_u_le hu hn)
      have : (1 + u) ^ ((idxs f).length + 1) ≤ (1 + u) ^ (n + 3) := pow_le_pow_right₀ (by linarith) (by omega)
      linarith
    set t : ℝ := (n + 3 : ℕ) * u with ht
    have ht0 : 0 ≤ t := by positivity
    have h4 : 0 ≤ w ⬝ᵥ w := dot_self_nonneg w
    have h5 : (1 - 102 / 100 * t) * (w ⬝ᵥ w) ≤ (1 + u) * θ ^ 2 := by
      have h6 : (1 - 102 / 100 * t) * (w ⬝ᵥ w) ≤ (1 - ((1 + u) ^ ((idxs f).length + 1) - 1)) * (w ⬝ᵥ w) :=
        mul_le_mul_of_nonneg_right (by linarith) h4
      have h7 := (abs_le.1 hη).2
      nlinarith [sq_nonneg θ]
    have h6 : u ≤ t / 3 := by
      rw [ht]; push_cast
      have : (0 : ℝ) ≤ n := by positivity
      nlinarith
    have h8 : (1 + u) ≤ (1 + t) ^ 2 * (1 - 102 / 100 * t) := by
      nlinarith [mul_nonneg ht0 ht0, mul_nonneg (mul_nonneg ht0 ht0) ht0]
    rw [mul_pow, sq_abs]
    have h9 : (1 - 102 / 100 * t) * (w ⬝ᵥ w) ≤ (1 - 102 / 100 * t) * ((1 + t) ^ 2 * θ ^ 2) := by
      have := mul_le_mul_of_nonneg_right h8 (sq_nonneg θ)
      linarith
    exact le_of_mul_le_mul_left h9 (by linarith)
  refine qp_near_opt hH (by positivity) (fun i => gradErr_of hu hn (hGe i)) (fun i => ?_) hww
  simp only [hw]
  cases hfi : f i with
  | true => simp
  | false =>
    have hc : clampedFlags a s.x (gradient a s.x) i = true := by simpa [hfdef] using hfi
    simpa using D.flag_sign (hx i) (hG i) (hy i) hc

/-! ### Runs in double precision -/

/-- Factorisation of 1x1 matrices with entry 1. -/
def idLLT53 : LLT (Bin 53) where
  ok _ := true
  solve _ b := b

/-- minimise `x²/2 - 2x` over `[0, b]` from `x`. -/
def doubleArgs (b x : ℚ) : Args 1 (Bin 53) where
  H := fun _ _ => 1
  g := fun _ => lit (-2)
  lower := fun _ => 0
  upper := fun _ => lit b
  init := fun _ => lit x

/-- A new solver object. -/
def freshDouble : Obj 1 (Bin 53) := ⟨0, none, [], []⟩

/-- The code with which the main loop is left. -/
def codeOf (s : State 1 (Bin 53) ⊕ Res (State 1 (Bin 53))) : Option (ℤ × XQ) :=
  match s with
  | .inr (.ok s) => some (s.retval, (s.x 0).x)
  | _ => none

theorem run_of_code {a : Args 1 (Bin 53)} {k : ℤ} {x : XQ}
    (h : codeOf (mainStep idLLT53 Config.default a (initState a freshDouble)) = some (k, x)) :
    ∃ r, solve idLLT53 Config.default freshDouble a = .ok r ∧ r.obj.retval = k ∧ (r.x 0).x = x := by
  unfold codeOf at h
  split at h
  · rename_i s hs
    simp only [Option.some.injEq, Prod.mk.injEq] at h
    refine ⟨s.result, ?_, h.1, h.2⟩
    unfold solve loopR
    rw [loopM_inr hs]
    rfl
  · cases h

/-- From 5, which is clamped to 1: all clamped. -/
theorem double_clamped :
    ∃ r, solve idLLT53 Config.default freshDouble (doubleArgs 1 5) = .ok r ∧ r.obj.retval = 6 ∧ (r.x 0).x = .fin 1 :=
  run_of_code (by decide +kernel)

/-- From the double next to 2 + 10^-9: small gradient. -/
theorem double_gradient :
    ∃ r, solve idLLT53 Config.default freshDouble (doubleArgs 3 (2 + 1 / 10 ^ 9)) = .ok r ∧ r.obj.retval = 5 ∧
      (r.x 0).x = .fin (4503599629622296 / 2251799813685248) :=
  run_of_code (by decide +kernel)

theorem doubleArgs_finite {b x : ℚ} (hb : 0 ≤ rnd 53 b) :
    FiniteData (floatLaws_bin 53) (doubleArgs b x) 1 (fun _ => ((rnd 53 (-2) : ℚ) : ℝ)) (fun _ => 0)
      (fun _ => ((rnd 53 b : ℚ) : ℝ)) where
  H i j := by
    obtain rfl := Subsingleton.elim i j
    rw [Matrix.one_apply_eq]
    exact (floatLaws_bin 53).one
  g _ := rfl
  lower _ := (floatLaws_bin 53).zero
  upper _ := rfl
  le _ := by exact_mod_cast hb

/-- Both runs meet the hypotheses of the certificates. -/
example : ∃ r, solve idLLT53 Config.default freshDouble (doubleArgs 1 5) = .ok r ∧ r.obj.retval = 6 ∧
    ∃ x : Vec 1 ℝ, (∀ i, (floatLaws_bin 53).val (r.x i) = .fin (x i)) ∧
      ∀ y, InBox (fun _ => 0) (fun _ => ((rnd 53 1 : ℚ) : ℝ)) y →
        qp 1 (fun _ => ((rnd 53 (-2) : ℚ) : ℝ)) x ≤ qp 1 (fun _ => ((rnd 53 (-2) : ℚ) : ℝ)) y +
          ∑ i, gradErr ((1 / 2) ^ 53) 1 (fun _ => ((rnd 53 (-2) : ℚ) : ℝ)) x i * |y i - x i| := by
  obtain ⟨r, hr, h⟩ := double_clamped
  obtain ⟨x, h1, -, h2⟩ := C97_all_clamped (arithLaws_bin 53) (doubleArgs_finite (b := 1) (x := 5) (by decide +kernel)) Matrix.PosSemidef.one
      (by norm_num) hr h.1
  exact ⟨r, hr, h.1, x, h1, h2⟩

example : ∃ r, solve idLLT53 Config.default freshDouble (doubleArgs 3 (2 + 1 / 10 ^ 9)) = .ok r ∧ r.obj.retval = 5 ∧
    ∃ x : Vec 1 ℝ, (∀ i, (floatLaws_bin 53).val (r.x i) = .fin (x i)) ∧
      ∀ y, InBox (fun _ => 0) (fun _ => ((rnd 53 3 : ℚ) : ℝ)) y →
        qp 1 (fun _ => ((rnd 53 (-2) : ℚ) : ℝ)) x ≤ qp 1 (fun _ => ((rnd 53 (-2) : ℚ) : ℝ)) y +
          ((1 + (1 + 3 : ℕ) * (1 / 2) ^ 53) * |((rnd 53 (1 / 10 ^ 8) : ℚ) : ℝ)| * Real.sqrt ((y - x) ⬝ᵥ (y - x)) +
          ∑ i, gradErr ((1 / 2) ^ 53) 1 (fun _ => ((rnd 53 (-2) : ℚ) : ℝ)) x i * |y i - x i|) := by
  obtain ⟨r, hr, h⟩ := double_gradient
  obtain ⟨x, h1, -, h2⟩ := C97_small_gradient (arithLaws_bin 53) (doubleArgs_finite (b := 3) (x := 2 + 1 / 10 ^ 9) (by decide +kernel))
      Matrix.PosSemidef.one (by norm_num) (θ := ((rnd 53 (1 / 10 ^ 8) : ℚ) : ℝ)) rfl hr h.1
  exact ⟨r, hr, h.1, x, h1, h2⟩

end BoxQP

namespace FMPC

open DDP (FDeriv LDeriv VDeriv timeAt)

variable {n : ℕ} {md pd : α → ℕ} {F : FloatLaws α u}

/-- The derivatives are those returned by the callbacks at the point (for some previous contents of the outputs). -/
def DerivsOf (P : Callbacks n md pd) (t0 dt : α) (N : ℕ)
    (v : Var n (fun i => md (timeAt t0 dt i)) (fun i => pd (timeAt t0 dt i)) α)
    (dF : (i : ℕ) → FDeriv n (md (timeAt t0 dt i)) α)
    (dG : (i : ℕ) → GDeriv n (md (timeAt t0 dt i)) (pd (timeAt t0 dt i)) α)
    (dL : (i : ℕ) → LDeriv n (md (timeAt t0 dt i)) α) (dV : VDeriv n α) : Prop :=
  (∀ i < N, (∃ b, dF i = P.stateEqDeriv (timeAt t0 dt i) (v.x i) (v.u i) b) ∧
    (∃ b, dG i = P.ineqConstDeriv (timeAt t0 dt i) (v.x i) (v.u i) b) ∧
    (∃ b, dL i = P.runningCostDeriv (timeAt t0 dt i) (v.x i) (v.u i) b)) ∧
  ∃ b, dV = P.terminalCostDeriv (timeAt t0 dt N) (v.x N) b

/-- Two numbers that differ by at most `τ`. -/
def Close (F : FloatLaws α u) (τ : ℝ) (a b : α) : Prop := F.IsNum a ∧ F.IsNum b ∧ |F.num a - F.num b| ≤ τ

/-- The KKT conditions of the optimal control problem, evaluated exactly on the floating-point numbers of a primal-dual
point and on the values and derivatives that the callbacks return there, hold with tolerance `τ`; the stationarity
conditions with an additional tolerance of `ρ` times the sum of the magnitudes of the terms. -/
structure KktNear (F : FloatLaws α u) (P : Callbacks n md pd) (t0 dt : α) (x0 : Vec n α) (N : ℕ)
    (v : Var n (fun i => md (timeAt t0 dt i)) (fun i => pd (timeAt t0 dt i)) α)
    (dF : (i : ℕ) → FDeriv n (md (timeAt t0 dt i)) α)
    (dG : (i : ℕ) → GDeriv n (md (timeAt t0 dt i)) (pd (timeAt t0 dt i)) α)
    (dL : (i : ℕ) → LDeriv n (md (timeAt t0 dt i)) α) (dV : VDeriv n α) (τ ρ : ℝ) : Prop where
  init : ∀ j, Close F τ (x0 j) (v.x 0 j)
  terminal : ∀ j, Close F τ (dV.Vx j) (v.lam N j)
  dynamics : ∀ i < N, ∀ j, Close F τ (P.stateEq (timeAt t0 dt i) (v.x i) (v.u i) j) (v.x (i + 1) j)
  ineq : ∀ i < N, ∀ j, F.IsNum (P.ineqConst (timeAt t0 dt i) (v.x i) (v.u i) j) ∧ F.IsNum (v.s i j) ∧
    |F.num (P.ineqConst (timeAt t0 dt i) (v.x i) (v.u i) j) + F.num (v.s i j)| ≤ τ
  compl : ∀ i < N, ∀ j, F.IsNum (v.nu i j) → F.num (v.s i j) * F.num (v.nu i j) ≤ τ
  state : ∀ i < N, ∀ j,
    (F.IsNum (v.lam i j) ∧ F.IsNum dt ∧ F.IsNum ((dL i).Lx j) ∧
      (∀ r, F.IsNum ((dF i).Fx r j) ∧ F.IsNum (v.lam (i + 1) r)) ∧ ∀ r, F.IsNum ((dG i).C r j) ∧ F.IsNum (v.nu i r)) ∧
    |-F.num (v.lam i j) + F.num dt * F.num ((dL i).Lx j) + ∑ r, F.num ((dF i).Fx r j) * F.num (v.lam (i + 1) r) +
        ∑ r, F.num ((dG i).C r j) * F.num (v.nu i r)| ≤
      τ + ρ * (|F.num (v.lam i j)| + |F.num dt * F.num ((dL i).Lx j)| +
        ∑ r, |F.num ((dF i).Fx r j) * F.num (v.lam (i + 1) r)| + ∑ r, |F.num ((dG i).C r j) * F.num (v.nu i r)|)
  input : ∀ i < N, ∀ j,
    (F.IsNum dt ∧ F.IsNum ((dL i).Lu j) ∧
      (∀ r, F.IsNum ((dF i).Fu r j) ∧ F.IsNum (v.lam (i + 1) r)) ∧ ∀ r, F.IsNum ((dG i).D r j) ∧ F.IsNum (v.nu i r)) ∧
    |F.num dt * F.num ((dL i).Lu j) + ∑ r, F.num ((dF i).Fu r j) * F.num (v.lam (i + 1) r) +
        ∑ r, F.num ((dG i).D r j) * F.num (v.nu i r)| ≤
      τ + ρ * (|F.num dt * F.num ((dL i).Lu j)| +
        ∑ r, |F.num ((dF i).Fu r j) * F.num (v.lam (i + 1) r)| + ∑ r, |F.num ((dG i).D r j) * F.num (v.nu i r)|)

variable {L : GainSolver α} {P : Callbacks n md pd} {dt : α} {cfg : Config α} {o : Obj n α}
  {t0 : α} {sc : Scratch n (fun i => md (timeAt t0 dt i)) (fun i => pd (timeAt t0 dt i)) α} {x0 : Vec n α} {init : VarL n α}

theorem near_le {r S τ B : ℝ} (h1 : |r| ≤ τ) (h2 : |r - S| ≤ B) : |S| ≤ τ + B := by
  have h3 := abs_sub_abs_le_abs_sub S r
  rw [abs_sub_comm] at h3
  linarith

/-- One iteration: what a KKT error below the threshold says. -/
theorem kktNear_of (A : ArithLaws F) {N d : ℕ} (hn : n ≤ d) (hm : ∀ i < N, md (timeAt t0 dt i) ≤ d)
    (hp : ∀ i < N, pd (timeAt t0 dt i) ≤ d) (hW : (5 * N + d + 10 : ℕ) * u ≤ 1 / 100)
    {θ : ℝ} (hθ : F.val cfg.kktErrorThre = .fin θ)
    (w : Solver n (fun i => md (timeAt t0 dt i)) (fun i => pd (timeAt t0 dt i)) α) (e : α)
    (h : leb (kktOf N x0 (prepared N (stagesOf P t0 dt N) w e)) cfg.kktErrorThre = true) :
    ∃ dF dG dL dV, DerivsOf P t0 dt N w.var dF dG dL dV ∧
      KktNear F P t0 dt x0 N w.var dF dG dL dV ((1 + (5 * N + d + 10 : ℕ) * u) * θ) (102 / 100 * ((d + 4 : ℕ) * u)) := by
  have hu0 := F.u_nonneg
  have hWn : ((5 * N + d + 10 : ℕ) : ℝ) = 5 * N + d + 10 := by push_cast; ring
  have hN0 : (0 : ℝ) ≤ N := by positivity
  have hd0 : (0 : ℝ) ≤ d := by positivity
  have hu1 : u ≤ 1 / 1000 := by rw [hWn] at hW; nlinarith
  have hu : u < 1 := by linarith
  have hd2 : ((d + 4 : ℕ) : ℝ) * u ≤ 1 / 100 := by
    rw [hWn] at hW; push_cast; nlinarith
  have hd : (1 + u) ^ (d + 2) ≤ 2 := by
    have h1 := pow_u_le hu0 hd2
    have h2 : (1 + u) ^ (d + 2) ≤ (1 + u) ^ (d + 4) := pow_le_pow_right₀ (by linarith) (by omega)
    linarith
  obtain ⟨hθ0, k1, k2, k3⟩ := kkt_terms A hu hd hn hm hp hθ h
  set co := (prepared N (stagesOf P t0 dt N) w e).coeff with hco
  have hci : ∀ i < N, co i = calcCoeff (stagesOf P t0 dt N) w.var i (w.coeff i) := fun i hi => if_pos hi
  set W : ℝ := (5 * N + d + 10 : ℕ) * u with hWd
  have sm := fun {y r : ℝ} => small_le (d := d) (N := N) (W := W) (θ := θ) (y := y) (r := r) hu0 hWd hW hθ0
  have self : ∀ r : ℝ, (1 - u) ^ 2 * |r| ≤ |r| := fun r => by
    have : (1 - u) ^ 2 ≤ 1 := pow_le_one₀ (by linarith) (by linarith)
    nlinarith [abs_nonneg r]
  have hρ := pow_u_le hu0 hd2
  refine ⟨fun i => (co i).F, fun i => (co i).G, fun i => (co i).L, (prepared N (stagesOf P t0 dt N) w e).term.V,
    ⟨fun i hi => ?_, ⟨_, rfl⟩⟩, ⟨fun j => ?_, fun j => ?_, fun i hi j => ?_, fun i hi j => ?_, fun i hi j hnu => ?_,
      fun i hi j => ?_, fun i hi j => ?_⟩⟩
  · dsimp only
    rw [hci i hi]
    exact ⟨⟨_, rfl⟩, ⟨_, rfl⟩, ⟨_, rfl⟩⟩
  · obtain ⟨r, hr, hs⟩ := k1 j
    obtain ⟨ha, hb, δ, hδ, e1⟩ := num_of_sub hr
    exact ⟨ha, hb, sm hs (one_rounding hu0 hu hδ e1)⟩
  · obtain ⟨r, hr, hs⟩ := k2 j
    obtain ⟨ha, hb, δ, hδ, e1⟩ := num_of_sub hr
    exact ⟨ha, hb, sm hs (one_rounding hu0 hu hδ e1)⟩
  · obtain ⟨r, hr, hs⟩ := (k3 i hi).1 j
    rw [hci i hi] at hr
    obtain ⟨ha, hb, δ, hδ, e1⟩ := num_of_sub hr
    exact ⟨ha, hb, sm hs (one_rounding hu0 hu hδ e1)⟩
  · obtain ⟨r, hr, hs⟩ := (k3 i hi).2.1 j
    rw [hci i hi] at hr
    obtain ⟨ha, hb, δ, hδ, e1⟩ := num_of_add hr
    exact ⟨ha, hb, sm hs (one_rounding hu0 hu hδ e1)⟩
  · obtain ⟨r, hr, hs⟩ := (k3 i hi).2.2.2.2 j
    have hsn : F.IsNum (w.var.s i j) := by
      obtain ⟨r, hr, -⟩ := (k3 i hi).2.1 j
      rw [hci i hi] at hr
      exact (num_of_add hr).2.1
    have := sm hs (compl_float hu hsn.val hnu.val hr)
    exact (le_max_left _ _).trans ((le_abs_self _).trans this)
  · obtain ⟨r, hr, hs⟩ := (k3 i hi).2.2.1 j
    rw [hci i hi] at hr ⊢
    obtain ⟨h1, h2⟩ := statx_float hn (hp i hi) (A.mulVec _ _ j) (A.mulVec _ _ j) hr
    refine ⟨h1, ?_⟩
    have h3 := sm hs (self r)
    have h4 := h2.trans (mul_le_mul_of_nonneg_right hρ (by positivity))
    exact near_le h3 h4
  · obtain ⟨r, hr, hs⟩ := (k3 i hi).2.2.2.1 j
    rw [hci i hi] at hr ⊢
    obtain ⟨h1, h2⟩ := statu_float hn (hp i hi) (A.mulVec _ _ j) (A.mulVec _ _ j) hr
    refine ⟨h1, ?_⟩
    have h3 := sm hs (self r)
    have h4 := h2.trans (mul_le_mul_of_nonneg_right hρ (by positivity))
    exact near_le h3 h4

/-- **C97**, fast MPC: in every arithmetic of the standard model, `Succeeded` means that the returned primal-dual point
consists of numbers that satisfy the KKT conditions within `kkt_error_thre`, enlarged by the relative rounding error of
the computed norm, and the rounding error of the stationarity residuals. -/
theorem C97_succeeded (A : ArithLaws F) {d : ℕ} (hn : n ≤ d) (hm : ∀ t, md t ≤ d) (hp : ∀ t, pd t ≤ d)
    (hW : (5 * cfg.horizon.toNat + d + 10 : ℕ) * u ≤ 1 / 100) {θ : ℝ} (hθ : F.val cfg.kktErrorThre = .fin θ)
    {o' : Obj n α} (h : solve L P dt cfg o t0 sc x0 init = (o', .ok .succeeded)) :
    ∃ v dF dG dL dV, o'.var = v.out cfg.horizon.toNat ∧ DerivsOf P t0 dt cfg.horizon.toNat v dF dG dL dV ∧
      KktNear F P t0 dt x0 cfg.horizon.toNat v dF dG dL dV ((1 + (5 * cfg.horizon.toNat + d + 10 : ℕ) * u) * θ)
        (102 / 100 * ((d + 4 : ℕ) * u)) := by
  obtain ⟨v, w, hv, hc, hr, rfl⟩ := solve_ok h
  obtain ⟨st', ho, hst, _⟩ := runSolver_ok hr
  obtain ⟨hl, -, -⟩ := (checkVariable_iff (md := md) (pd := pd) (t0 := t0) (dt := dt) (horizon := cfg.horizon) v).2.2.1 hc
  have hN : cfg.horizon.toNat = v.us.length := by have := hl.2.1; omega
  rw [hN] at hW ⊢
  have hst' : st' = .succeeded := by
    by_cases hcs : st' = .iterationContinued
    · rw [if_pos hcs] at hst; cases hst
    · rw [if_neg hcs] at hst; exact hst.symm
  have key : st' = .succeeded → ∃ dF dG dL dV, DerivsOf P t0 dt v.us.length w.var dF dG dL dV ∧
      KktNear F P t0 dt x0 v.us.length w.var dF dG dL dV ((1 + (5 * v.us.length + d + 10 : ℕ) * u) * θ)
        (102 / 100 * ((d + 4 : ℕ) * u)) := by
    refine optLoop_rule (fun _ st _ => st ≠ .succeeded) (fun st w => st = .succeeded →
        ∃ dF dG dL dV, DerivsOf P t0 dt v.us.length w.var dF dG dL dV ∧
          KktNear F P t0 dt x0 v.us.length w.var dF dG dL dV ((1 + (5 * v.us.length + d + 10 : ℕ) * u) * θ)
            (102 / 100 * ((d + 4 : ℕ) * u))) (by simp) ?_
      (fun st w h1 h2 => absurd h2 h1) ho
    intro it st w w' st' _ _ _ hp'
    obtain ⟨e, he, _, _, h1, h2, _⟩ := procOnce_frame hp'
    split
    · rename_i hh; rw [hh]; simp
    · rename_i hh
      intro hs
      rw [h1 hh]
      exact kktNear_of A hn (fun i _ => hm _) (fun i _ => hp _) hW hθ w e (h2.1 hs)
  obtain ⟨dF, dG, dL, dV, h1, h2⟩ := key hst'
  exact ⟨w.var, dF, dG, dL, dV, rfl, h1, h2⟩

/-- **C97**, fast MPC, feasibility: if moreover no slack of the warm start is `<= 0` (or `init_complementary_variable` is
set), then after `Succeeded` every inequality constraint holds at the returned point up to the same tolerance, and every
multiplier and slack is a positive number. -/
theorem C97_feasible (A : ArithLaws F) {d : ℕ} (hn : n ≤ d) (hm : ∀ t, md t ≤ d) (hp : ∀ t, pd t ≤ d)
    (hW : (5 * cfg.horizon.toNat + d + 10 : ℕ) * u ≤ 1 / 100) {θ : ℝ} (hθ : F.val cfg.kktErrorThre = .fin θ)
    (hu : u ≤ 1 / 2048) (hs : cfg.initComplementary = true ∨ init.Safe)
    {o' : Obj n α} (h : solve L P dt cfg o t0 sc x0 init = (o', .ok .succeeded)) :
    ∃ v : Var n (fun i => md (timeAt t0 dt i)) (fun i => pd (timeAt t0 dt i)) α, o'.var = v.out cfg.horizon.toNat ∧
      ∀ i < cfg.horizon.toNat, ∀ j,
        F.IsNum (P.ineqConst (timeAt t0 dt i) (v.x i) (v.u i) j) ∧
        F.num (P.ineqConst (timeAt t0 dt i) (v.x i) (v.u i) j) < (1 + (5 * cfg.horizon.toNat + d + 10 : ℕ) * u) * θ ∧
        F.IsNum (v.s i j) ∧ 0 < F.num (v.s i j) := by
  obtain ⟨v, dF, dG, dL, dV, ho, -, hk⟩ := C97_succeeded A hn hm hp hW hθ h
  have hsafe := C93_positive F hu hs h
  rw [ho] at hsafe
  refine ⟨v, ho, fun i hi j => ?_⟩
  obtain ⟨h1, h2, h3⟩ := hk.ineq i hi j
  have h4 : leb (v.s i j) 0 = false := hsafe.1 ⟨_, v.s i⟩ (List.mem_map.2 ⟨i, List.mem_range.2 hi, rfl⟩) j
  have h5 : 0 < F.num (v.s i j) := by
    unfold leb at h4
    rw [Bool.or_eq_false_iff, ← Bool.not_eq_true, ← Bool.not_eq_true, F.ltb_fin h2.val F.zero, F.eqb_iff, h2.val, F.zero] at h4
    exact lt_of_le_of_ne (not_lt.1 h4.1) (fun h => h4.2 h.symm)
  have h6 := (abs_le.1 h3).2
  exact ⟨h1, by linarith, h2, h5⟩

/-! ### A run in double precision -/

/-- Division, for 1x1 matrices. -/
def divGain : GainSolver (Bin 53) where
  ok M := decide (∀ i, XQ.lt (.fin 0) (M i i).x = true)
  ldlt M b i := b i / M i i
  lu M b i := b i / M i i

/-- `x' = x + u`, cost `u²/2`, terminal cost `(x - 1/3)²/2`, constraint `u ≤ 1/10`. -/
def doubleProblem : Callbacks 1 (fun _ : Bin 53 => 1) (fun _ => 1) where
  stateEq _ x u := fun _ => x 0 + u 0
  runningCost _ _ u := lit (1 / 2) * (u 0 * u 0)
  terminalCost _ x := lit (1 / 2) * ((x 0 - lit (1 / 3)) * (x 0 - lit (1 / 3)))
  ineqConst _ _ u := fun _ => u 0 - lit (1 / 10)
  stateEqDeriv _ _ _ _ := { Fx := fun _ _ => 1, Fu := fun _ _ => 1 }
  ineqConstDeriv _ _ _ _ := { C := fun _ _ => 0, D := fun _ _ => 1 }
  runningCostDeriv _ _ u _ :=
    { Lx := fun _ => 0, Lu := fun _ => u 0, Lxx := fun _ _ => 0, Luu := fun _ _ => 1, Lxu := fun _ _ => 0 }
  terminalCostDeriv _ x _ := { Vx := fun _ => x 0 - lit (1 / 3), Vxx := fun _ _ => 1 }

/-- Buffers filled with zeros. -/
def doubleScratch : Scratch 1 (fun _ => 1) (fun _ => 1) (Bin 53) where
  delta := { x := fun _ _ => 0, u := fun _ _ => 0, lam := fun _ _ => 0, s := fun _ _ => 0, nu := fun _ _ => 0 }
  coeff _ :=
    { F := { Fx := fun _ _ => 0, Fu := fun _ _ => 0 }
      G := { C := fun _ _ => 0, D := fun _ _ => 0 }
      L := { Lx := fun _ => 0, Lu := fun _ => 0, Lxx := fun _ _ => 0, Luu := fun _ _ => 0, Lxu := fun _ _ => 0 }
      xbar := fun _ => 0, gbar := fun _ => 0, Lxbar := fun _ => 0, Lubar := fun _ => 0
      k := fun _ => 0, K := fun _ _ => 0, s := fun _ => 0, P := fun _ _ => 0 }
  term := { V := { Vx := fun _ => 0, Vxx := fun _ _ => 0 }, Lxbar := fun _ => 0, s := fun _ => 0,
            P := fun _ _ => 0, unset := [] }
  merit := { scale := 0, func := 0, deriv := 0 }

/-- A solve from `floatInit`. -/
def doubleRun : Obj 1 (Bin 53) × Res Status :=
  solve divGain doubleProblem 1 (defaultConfig 1 30) { var := ⟨[], [], [], [], []⟩, trace := [], eps := lit (1 / 10 ^ 4) } 0
    doubleScratch (fun _ => 0) floatInit

theorem doubleRun_succeeded : doubleRun.2 = .ok .succeeded := by decide +kernel

theorem floatInit_safe : floatInit.Safe := by
  constructor <;>
  · intro e he j
    simp only [floatInit, List.mem_cons, List.not_mem_nil, or_false] at he
    subst he
    change leb (lit _ : Bin 53) 0 = false
    decide +kernel

/-- The run meets the hypotheses: after four iterations in double precision `Succeeded`; constraint satisfied up to
(1 + 2^-49) times the threshold of 10^-4, rounded to double. -/
example : ∃ v : Var 1 (fun _ => 1) (fun _ => 1) (Bin 53), doubleRun.1.var = v.out 1 ∧
    (floatLaws_bin 53).num (v.u 0 0 - Nmpc.lit (1 / 10)) <
      (1 + 16 * (1 / 2) ^ 53) * ((rnd 53 (1 / 10 ^ 4) : ℚ) : ℝ) := by
  obtain ⟨v, h1, h2⟩ := C97_feasible (P := doubleProblem) (arithLaws_bin 53) (d := 1) (le_refl _) (fun _ => le_refl _) (fun _ => le_refl _)
    (cfg := defaultConfig 1 30) (by simp only [defaultConfig]; norm_num) (θ := ((rnd 53 (1 / 10 ^ 4) : ℚ) : ℝ)) rfl (by norm_num)
    (.inr floatInit_safe) (o' := doubleRun.1) (Prod.ext rfl doubleRun_succeeded)
  refine ⟨v, h1, ?_⟩
  have h3 : _ < (1 + ((16 : ℕ) : ℝ) * (1 / 2) ^ 53) * _ := (h2 0 (by decide) 0).2.1
  exact_mod_cast h3

end FMPC

end Nmpc
