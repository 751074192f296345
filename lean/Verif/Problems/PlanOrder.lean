import Verif.CGMRES.OrderExamples
import Verif.Problems.Mpc
import Verif.FMPC.Kkt

/-!
# Plans and simulations of the DDP and FMPC examples against the continuous-time motion (C138): general part

The examples discretise `x' = f(t, x, u)` with the explicit Euler method inside `stateEq`.  `f` is a state equation in the sense of the
C/GMRES part, `Held f N t h U y` says that `y` is the continuous trajectory when the inputs `U` are held.
-/

namespace Nmpc.Problems

open Set Cgmres OdeOrder

variable {n m : ℕ}

/-- Euler steps with a defect of at most `e` each, started within `e`. -/
theorem euler_perturbed (f : StateEq n m ℝ) (hf : ContDiff ℝ 1 (joint f)) (R T : ℝ) (hT : 0 ≤ T) :
    ∃ A, 0 ≤ A ∧ ∀ (N : ℕ) (t h e : ℝ) (U : ℕ → Vec m ℝ) (x : ℕ → Vec n ℝ) (y : ℝ → Vec n ℝ),
      0 < h → 0 ≤ e → N * h ≤ T → |t| ≤ R → (∀ i < N, ‖U i‖ ≤ R) → (∀ s ∈ Icc t (t + N * h), ‖y s‖ ≤ R) →
      Held f N t h U y → ‖x 0 - y t‖ ≤ e → (∀ i < N, ‖x (i + 1) - (x i + h • f (t + i * h) (x i) (U i))‖ ≤ e) →
      A * (h + e + e / h) ≤ 1 → ∀ i ≤ N, ‖x i - y (t + i * h)‖ ≤ A * (h + e + e / h) := by
  obtain ⟨C, hC0, hloc⟩ := euler_local (aug_contDiff hf) (R + T)
  obtain ⟨K, hK, hlip⟩ := lip_ball hf (R + T + 1)
  set A := (1 + 2 * (C + 1) * T) * Real.exp (K * T) with hA
  have hA0 : 0 ≤ A := by positivity
  refine ⟨A, hA0, ?_⟩
  intro N t h e U x y hh0 he hN ht hU hb hy hx0 hx hsm
  have hh := hh0.le
  have hdiv : 0 ≤ e / h := div_nonneg he hh
  have bds : ∀ i < N, |t + i * h| ≤ R + T ∧ ‖y (t + i * h)‖ ≤ R + T ∧ ‖U i‖ ≤ R + T := by
    intro i hi
    have hr := (heldRun hh hy ht hU hN hb i hi).bd 0 (left_mem_Icc.2 hh)
    simp only [heldRun, add_zero] at hr
    exact ⟨(norm_fst_le _).trans hr, (norm_fst_le _).trans ((norm_snd_le _).trans hr), (norm_snd_le _).trans ((norm_snd_le _).trans hr)⟩
  have hle : (e + 2 * (C * h + e / h) * T) * Real.exp (K * T) ≤ A * (h + e + e / h) := by
    have : e + 2 * (C * h + e / h) * T ≤ (1 + 2 * (C + 1) * T) * (h + e + e / h) := by
      have h1 : 0 ≤ C * T := by positivity
      have h2 : 0 ≤ C * T * h := by positivity
      have h3 : 0 ≤ C * T * e := by positivity
      have h4 : 0 ≤ C * T * (e / h) := by positivity
      have h5 : 0 ≤ T * h := by positivity
      have h6 : 0 ≤ T * e := by positivity
      nlinarith
    calc _ ≤ (1 + 2 * (C + 1) * T) * (h + e + e / h) * Real.exp (K * T) := by gcongr
      _ = _ := by rw [hA]; ring
  have heh : e = e / h * h := by field_simp
  have := gronwall (N := N) (Φ := fun i z => z + h • f (t + i * h) z (U i) + (x (i + 1) - (x i + h • f (t + i * h) (x i) (U i))))
    (x := x) (y := fun i => y (t + i * h)) (h := h) (b := e) (c := C * h + e / h) (Λ := K) (T := T) hh he (by positivity) hK hN
    (by simpa using hx0) (fun i _ => by abel) ?_ ?_ (hle.trans hsm)
  · exact fun i hi => (this i hi).trans hle
  · intro i hi
    have h1 := hloc (heldRun hh hy ht hU hN hb i hi)
    have h3 : (heldRun hh hy ht hU hN hb i hi).h = h := rfl
    have h2 : (heldRun hh hy ht hU hN hb i hi).y 0 + h • aug f ((heldRun hh hy ht hU hN hb i hi).y 0) -
        (heldRun hh hy ht hU hN hb i hi).y h =
        (0, y (t + i * h) + h • f (t + i * h) (y (t + i * h)) (U i) - y (t + i * h + h), 0) := by
      simp [heldRun, aug]
    rw [h3, h2] at h1
    have h4 := (norm_fst_le _).trans ((norm_snd_le _).trans h1)
    have e1 : t + ((i + 1 : ℕ) : ℝ) * h = t + i * h + h := by push_cast; ring
    rw [e1]
    have h5 := hx i hi
    calc _ = ‖(y (t + i * h) + h • f (t + i * h) (y (t + i * h)) (U i) - y (t + i * h + h)) +
          (x (i + 1) - (x i + h • f (t + i * h) (x i) (U i)))‖ := by congr 1; abel
      _ ≤ C * h ^ 2 + e := (norm_add_le _ _).trans (add_le_add h4 h5)
      _ = (C * h + e / h) * h := by rw [add_mul, ← heh]; ring
  · intro i hi z hz
    obtain ⟨b1, b2, b3⟩ := bds i hi
    have hz' : ‖z‖ ≤ R + T + 1 := by
      calc ‖z‖ = ‖y (t + i * h) + (z - y (t + i * h))‖ := by congr 1; abel
        _ ≤ _ := norm_add_le _ _
        _ ≤ _ := add_le_add b2 hz
    have h7 := hlip (t + i * h, y (t + i * h), U i) (t + i * h, z, U i)
      (by rw [Prod.norm_mk, Prod.norm_mk]; exact max_le (by rw [Real.norm_eq_abs]; linarith) (max_le (by linarith) (by linarith)))
      (by rw [Prod.norm_mk, Prod.norm_mk]; exact max_le (by rw [Real.norm_eq_abs]; linarith) (max_le hz' (by linarith)))
    have e2 : ((t + i * h, z, U i) : Aug n m) - (t + i * h, y (t + i * h), U i) = (0, z - y (t + i * h), 0) := by simp
    rw [e2, Prod.norm_mk, Prod.norm_mk] at h7
    simp only [norm_zero, norm_nonneg, sup_of_le_left, sup_of_le_right, joint] at h7
    set y' := y (t + i * h)
    set F := f (t + i * h)
    have hpos : 0 ≤ (C * h + e / h) * h := by positivity
    calc _ = ‖(z - y') + h • (F z (U i) - F y' (U i))‖ := by congr 1; module
      _ ≤ ‖z - y'‖ + h * (K * ‖z - y'‖) := by
        refine (norm_add_le _ _).trans (add_le_add le_rfl ?_)
        rw [norm_smul, Real.norm_of_nonneg hh]
        gcongr
      _ ≤ _ := by linarith

/-- The exact case. -/
theorem euler_exact (f : StateEq n m ℝ) (hf : ContDiff ℝ 1 (joint f)) (R T : ℝ) (hT : 0 ≤ T) :
    ∃ A, 0 ≤ A ∧ ∀ (N : ℕ) (t h : ℝ) (U : ℕ → Vec m ℝ) (x : ℕ → Vec n ℝ) (y : ℝ → Vec n ℝ),
      0 < h → A * h ≤ 1 → N * h ≤ T → |t| ≤ R → (∀ i < N, ‖U i‖ ≤ R) → (∀ s ∈ Icc t (t + N * h), ‖y s‖ ≤ R) →
      Held f N t h U y → x 0 = y t → (∀ i < N, x (i + 1) = x i + h • f (t + i * h) (x i) (U i)) →
      ∀ i ≤ N, ‖x i - y (t + i * h)‖ ≤ A * h := by
  obtain ⟨A, hA, h⟩ := euler_perturbed f hf R T hT
  refine ⟨A, hA, fun N t s U x y hs hsm hN ht hU hb hy hx0 hx i hi => ?_⟩
  have := h N t s 0 U x y hs le_rfl hN ht hU hb hy (by simp [hx0]) (fun i hi => by rw [hx i hi]; simp) (by simpa using hsm) i hi
  simpa using this

end Nmpc.Problems
