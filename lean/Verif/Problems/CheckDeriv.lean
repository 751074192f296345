import Verif.Problems.RefsProps
import Mathlib.Analysis.Calculus.Deriv.MeanValue
import Mathlib.Topology.Algebra.Order.LiminfLimsup

/-!
# The `CheckDerivative` tests: central differences against the analytical derivatives

Sources: TestDDPCartPole.cpp 609-648, TestDDPCentroidalMotion.cpp 367-411, TestFmpcCartPole.cpp 625-695, TestFmpcOscillator.cpp 203-266.
-/

namespace Nmpc.Problems

open Filter Topology Finset Set

/-- `Unit(i)` -/
def unitV {n : ℕ} (i : Fin n) : Vec n ℝ := Pi.single i 1

/-- The numerical derivative (e.g. TestDDPCentroidalMotion.cpp 394-407): column `j` is
`(f(x + deriv_eps * Unit(j)) - f(x - deriv_eps * Unit(j))) / (2 * deriv_eps)`. -/
noncomputable def centralJac {m n : ℕ} (eps : ℝ) (f : Vec n ℝ → Vec m ℝ) (x : Vec n ℝ) : Mat m n ℝ :=
  fun i j => (f (x + smulv eps (unitV j)) i - f (x - smulv eps (unitV j)) i) / (lit 2 * eps)

/-- `A.norm()` (Frobenius). -/
noncomputable def frobNorm {m n : ℕ} (A : Mat m n ℝ) : ℝ := Real.sqrt (∑ i, ∑ j, A i j * A i j)

/-- `deriv_eps` (e.g. TestDDPCentroidalMotion.cpp 393). -/
noncomputable def derivEps : ℝ := lit (1 / 1000000)

/-- `EXPECT_LT((analytical - numerical).norm(), 1e-6)` (e.g. TestDDPCentroidalMotion.cpp 409). -/
def CheckPasses {m n : ℕ} (A : Mat m n ℝ) (f : Vec n ℝ → Vec m ℝ) (x : Vec n ℝ) : Prop :=
  frobNorm (A - centralJac derivEps f x) < lit (1 / 1000000)

/-! ## The error of the central difference -/

theorem le_of_hasDerivAt_le {f g f' g' : ℝ → ℝ} (hf : ∀ s, HasDerivAt f (f' s) s) (hg : ∀ s, HasDerivAt g (g' s) s)
    (h0 : f 0 ≤ g 0) (h : ∀ s, 0 ≤ s → f' s ≤ g' s) {s : ℝ} (hs : 0 ≤ s) : f s ≤ g s := by
  have hm : MonotoneOn (fun s => g s - f s) (Set.Ici 0) := by
    refine monotoneOn_of_deriv_nonneg (convex_Ici 0) ?_ ?_ ?_
    · exact fun t _ => ((hg t).sub (hf t)).continuousAt.continuousWithinAt
    · exact fun t _ => ((hg t).sub (hf t)).differentiableAt.differentiableWithinAt
    · intro t ht
      rw [interior_Ici] at ht
      have := ((hg t).sub (hf t)).deriv
      change 0 ≤ deriv (g - f) t
      rw [this]
      linarith [h t (le_of_lt ht)]
  have := hm (Set.mem_Ici.2 (le_refl (0 : ℝ))) (Set.mem_Ici.2 hs) hs
  simp only at this
  linarith

/-- One-sided estimate of the central difference. -/
theorem central_le {p p1 p2 p3 : ℝ → ℝ} (h0 : ∀ s, HasDerivAt p (p1 s) s) (h1 : ∀ s, HasDerivAt p1 (p2 s) s)
    (h2 : ∀ s, HasDerivAt p2 (p3 s) s) {K : ℝ} (hK : ∀ s, p3 s ≤ K) (a : ℝ) {e : ℝ} (he : 0 ≤ e) :
    p (a + e) - p (a - e) - 2 * p1 a * e ≤ K * e ^ 3 / 3 := by
  have q0 : ∀ s, HasDerivAt (fun s => p (a + s) - p (a - s) - 2 * p1 a * s) (p1 (a + s) + p1 (a - s) - 2 * p1 a) s := by
    intro s
    have := (((h0 (a + s)).comp_const_add a s).sub ((h0 (a - s)).comp_const_sub a s)).sub ((hasDerivAt_id s).const_mul (2 * p1 a))
    refine this.congr_deriv ?_
    ring
  have q1 : ∀ s, HasDerivAt (fun s => p1 (a + s) + p1 (a - s) - 2 * p1 a) (p2 (a + s) - p2 (a - s)) s := by
    intro s
    have := (((h1 (a + s)).comp_const_add a s).add ((h1 (a - s)).comp_const_sub a s)).sub_const (2 * p1 a)
    refine this.congr_deriv ?_
    ring
  have q2 : ∀ s, HasDerivAt (fun s => p2 (a + s) - p2 (a - s)) (p3 (a + s) + p3 (a - s)) s := by
    intro s
    have := ((h2 (a + s)).comp_const_add a s).sub ((h2 (a - s)).comp_const_sub a s)
    refine this.congr_deriv ?_
    ring
  have k2 : ∀ s, HasDerivAt (fun s : ℝ => 2 * K * s) (2 * K) s := fun s => by
    simpa using (hasDerivAt_id s).const_mul (2 * K)
  have k1 : ∀ s, HasDerivAt (fun s : ℝ => K * s ^ 2) (2 * K * s) s := fun s => by
    refine (((hasDerivAt_id s).pow 2).const_mul K).congr_deriv ?_
    simp; ring
  have k0 : ∀ s, HasDerivAt (fun s : ℝ => K * s ^ 3 / 3) (K * s ^ 2) s := fun s => by
    refine ((((hasDerivAt_id s).pow 3).const_mul K).div_const 3).congr_deriv ?_
    simp; ring
  have r2 : ∀ s, 0 ≤ s → p2 (a + s) - p2 (a - s) ≤ 2 * K * s := fun s hs =>
    le_of_hasDerivAt_le q2 k2 (by simp) (fun s _ => by linarith [hK (a + s), hK (a - s)]) hs
  have r1 : ∀ s, 0 ≤ s → p1 (a + s) + p1 (a - s) - 2 * p1 a ≤ K * s ^ 2 := fun s hs =>
    le_of_hasDerivAt_le q1 k1 (by simp; linarith) r2 hs
  exact le_of_hasDerivAt_le q0 k0 (by simp) r1 he

/-- **C83** The central difference of a function whose third derivative is bounded by `K` is off by at most `K e² / 6`. -/
theorem C83_error {p p1 p2 p3 : ℝ → ℝ} (h0 : ∀ s, HasDerivAt p (p1 s) s) (h1 : ∀ s, HasDerivAt p1 (p2 s) s)
    (h2 : ∀ s, HasDerivAt p2 (p3 s) s) {K : ℝ} (hK : ∀ s, |p3 s| ≤ K) (a : ℝ) {e : ℝ} (he : 0 < e) :
    |(p (a + e) - p (a - e)) / (2 * e) - p1 a| ≤ K * e ^ 2 / 6 := by
  have u := central_le h0 h1 h2 (fun s => (abs_le.1 (hK s)).2) a he.le
  have l := central_le (fun s => (h0 s).neg) (fun s => (h1 s).neg) (fun s => (h2 s).neg) (K := K)
    (fun s => by linarith [(abs_le.1 (hK s)).1]) a he.le
  have e1 : (p (a + e) - p (a - e)) / (2 * e) - p1 a = (p (a + e) - p (a - e) - 2 * p1 a * e) / (2 * e) := by
    field_simp
  have h2e : 0 < 2 * e := by linarith
  rw [e1, abs_le, le_div_iff₀ h2e, div_le_iff₀ h2e]
  simp only [Pi.neg_apply] at l
  constructor
  · calc -(K * e ^ 2 / 6) * (2 * e) = -(K * e ^ 3 / 3) := by ring
      _ ≤ _ := by linarith
  · calc _ ≤ K * e ^ 3 / 3 := u
      _ = K * e ^ 2 / 6 * (2 * e) := by ring

/-- The central difference of a function that is a polynomial of degree two in the coordinate is exact. -/
theorem central_quadratic {m n : ℕ} {f : Vec n ℝ → Vec m ℝ} {x : Vec n ℝ} {i : Fin m} {j : Fin n} {a b c : ℝ}
    (h : ∀ s : ℝ, f (x + s • unitV j) i = a + b * s + c * s ^ 2) {e : ℝ} (he : e ≠ 0) : centralJac e f x i j = b := by
  have h1 := h e
  have h2 := h (-e)
  have : x - smulv e (unitV j) = x + (-e) • unitV j := by rw [smulv_real]; module
  rw [centralJac, this, smulv_real, h1, h2, lit_real]
  push_cast
  field_simp
  ring

theorem frobNorm_zero {m n : ℕ} : frobNorm (0 : Mat m n ℝ) = 0 := by simp [frobNorm]

/-- **C83** What the check measures: as the step goes to zero, the number that is compared with the tolerance tends to the distance of
the analytical matrix from the true Jacobian. -/
theorem C83_limit {m n : ℕ} {f : Vec n ℝ → Vec m ℝ} {x : Vec n ℝ} {J : Mat m n ℝ} (hJ : IsJac f x J) (A : Mat m n ℝ) :
    Tendsto (fun e => frobNorm (A - centralJac e f x)) (𝓝[≠] 0) (𝓝 (frobNorm (A - J))) := by
  have key : ∀ i j, Tendsto (fun e => centralJac e f x i j) (𝓝[≠] 0) (𝓝 (J i j)) := by
    intro i j
    obtain ⟨D, hD, hDJ⟩ := hJ
    have hl : HasDerivAt (fun s : ℝ => f (x + s • unitV j) i) (J i j) 0 := by
      have e0 : x + (0 : ℝ) • unitV j = x := by simp
      have l1 : HasDerivAt (fun s : ℝ => x + s • unitV j) (unitV j) 0 := by
        simpa using ((hasDerivAt_id (0 : ℝ)).smul_const (unitV j)).const_add x
      have l2 := (e0.symm ▸ hD : HasFDerivAt f D (x + (0 : ℝ) • unitV j)).comp_hasDerivAt (0 : ℝ) l1
      have l3 := hasDerivAt_pi.1 l2 i
      refine l3.congr_deriv ?_
      rw [hDJ, unitV, Matrix.mulVec_single_one]
      rfl
    have hneg : HasDerivAt (fun s : ℝ => f (x + (-s) • unitV j) i) (-J i j) 0 := by
      have h0 : HasDerivAt (fun s : ℝ => f (x + s • unitV j) i) (J i j) (0 - 0) := by rw [sub_zero]; exact hl
      have := h0.comp_const_sub 0 0
      simp only [zero_sub] at this
      exact this
    have hsub := (hl.sub hneg).tendsto_slope
    have hsub' := hsub.div_const 2
    have e2 : (J i j - -J i j) / 2 = J i j := by ring
    rw [e2] at hsub'
    refine hsub'.congr' ?_
    filter_upwards [self_mem_nhdsWithin] with e he
    have he : e ≠ 0 := he
    have : x - smulv e (unitV j) = x + (-e) • unitV j := by rw [smulv_real]; module
    rw [centralJac, this, slope_def_field, smulv_real, lit_real]
    simp only [Pi.sub_apply, zero_smul, neg_zero, add_zero, sub_self, sub_zero]
    push_cast
    field_simp
  unfold frobNorm
  refine (Real.continuous_sqrt.tendsto _).comp ?_
  refine tendsto_finsetSum _ fun i _ => tendsto_finsetSum _ fun j _ => ?_
  exact (tendsto_const_nhds.sub (key i j)).mul (tendsto_const_nhds.sub (key i j))

/-! ## Quotients with trigonometric numerator and denominator -/

/-- A bound for the third derivative of `N / D` when `N` and its first three derivatives are bounded by `M`, the derivatives of `D` by
`E`, and `D` is at least `c`. -/
noncomputable def ratBound (M E c : ℝ) : ℝ :=
  let b0 := M / c
  let b1 := (M + b0 * E) / c
  let b2 := (M + 2 * (b1 * E) + b0 * E) / c
  (M + 3 * (b2 * E) + 3 * (b1 * E) + b0 * E) / c

theorem quotient_third {N N1 N2 N3 D D1 D2 D3 : ℝ → ℝ} (n0 : ∀ s, HasDerivAt N (N1 s) s) (n1 : ∀ s, HasDerivAt N1 (N2 s) s)
    (n2 : ∀ s, HasDerivAt N2 (N3 s) s) (d0 : ∀ s, HasDerivAt D (D1 s) s) (d1 : ∀ s, HasDerivAt D1 (D2 s) s)
    (d2 : ∀ s, HasDerivAt D2 (D3 s) s) {M E c : ℝ} (hc : 0 < c) (hD : ∀ s, c ≤ D s)
    (bN : ∀ s, |N s| ≤ M ∧ |N1 s| ≤ M ∧ |N2 s| ≤ M ∧ |N3 s| ≤ M) (bD : ∀ s, |D1 s| ≤ E ∧ |D2 s| ≤ E ∧ |D3 s| ≤ E) :
    ∃ q1 q2 q3 : ℝ → ℝ, (∀ s, HasDerivAt (fun s => N s / D s) (q1 s) s) ∧ (∀ s, HasDerivAt q1 (q2 s) s) ∧
      (∀ s, HasDerivAt q2 (q3 s) s) ∧ (∀ s, q1 s = (N1 s * D s - N s * D1 s) / (D s * D s)) ∧ ∀ s, |q3 s| ≤ ratBound M E c := by
  have hpos : ∀ s, 0 < D s := fun s => lt_of_lt_of_le hc (hD s)
  have hne : ∀ s, D s ≠ 0 := fun s => (hpos s).ne'
  let q0 : ℝ → ℝ := fun s => N s / D s
  let q1 : ℝ → ℝ := fun s => (N1 s - q0 s * D1 s) / D s
  let q2 : ℝ → ℝ := fun s => (N2 s - 2 * (q1 s * D1 s) - q0 s * D2 s) / D s
  let q3 : ℝ → ℝ := fun s => (N3 s - 3 * (q2 s * D1 s) - 3 * (q1 s * D2 s) - q0 s * D3 s) / D s
  have a0 : ∀ s, HasDerivAt q0 (q1 s) s := by
    intro s
    refine ((n0 s).div (d0 s) (hne s)).congr_deriv ?_
    show _ = (N1 s - N s / D s * D1 s) / D s
    have := hne s
    field_simp
  have a1 : ∀ s, HasDerivAt q1 (q2 s) s := by
    intro s
    refine (((n1 s).sub ((a0 s).mul (d1 s))).div (d0 s) (hne s)).congr_deriv ?_
    show _ = (N2 s - 2 * (q1 s * D1 s) - q0 s * D2 s) / D s
    have := hne s
    have e : (N1 s - q0 s * D1 s) = q1 s * D s := by
      show _ = (N1 s - q0 s * D1 s) / D s * D s
      field_simp
    simp only [Pi.sub_apply, Pi.mul_apply]
    rw [e]
    field_simp
    ring
  have a2 : ∀ s, HasDerivAt q2 (q3 s) s := by
    intro s
    refine ((((n2 s).sub (((a1 s).mul (d1 s)).const_mul 2)).sub ((a0 s).mul (d2 s))).div (d0 s) (hne s)).congr_deriv ?_
    show _ = (N3 s - 3 * (q2 s * D1 s) - 3 * (q1 s * D2 s) - q0 s * D3 s) / D s
    have := hne s
    have e : (N2 s - 2 * (q1 s * D1 s) - q0 s * D2 s) = q2 s * D s := by
      show _ = (N2 s - 2 * (q1 s * D1 s) - q0 s * D2 s) / D s * D s
      field_simp
    simp only [Pi.sub_apply, Pi.mul_apply]
    rw [e]
    field_simp
    ring
  refine ⟨q1, q2, q3, a0, a1, a2, fun s => ?_, fun s => ?_⟩
  · show (N1 s - N s / D s * D1 s) / D s = _
    have := hne s
    field_simp
  · obtain ⟨m0, m1, m2, m3⟩ := bN s
    obtain ⟨e1, e2, e3⟩ := bD s
    have hM : 0 ≤ M := (abs_nonneg _).trans m0
    have hE : 0 ≤ E := (abs_nonneg _).trans e1
    have dv : ∀ {y B : ℝ}, |y| ≤ B → |y / D s| ≤ B / c := by
      intro y B h
      rw [abs_div, abs_of_pos (hpos s)]
      exact div_le_div₀ ((abs_nonneg _).trans h) h hc (hD s)
    have ml : ∀ {y z B : ℝ}, |y| ≤ B → |z| ≤ E → |y * z| ≤ B * E := by
      intro y z B h h'
      rw [abs_mul]
      exact mul_le_mul h h' (abs_nonneg _) ((abs_nonneg _).trans h)
    have sb : ∀ {y z A B : ℝ}, |y| ≤ A → |z| ≤ B → |y - z| ≤ A + B := fun h h' => (abs_sub _ _).trans (add_le_add h h')
    have sc : ∀ {y B k : ℝ}, 0 ≤ k → |y| ≤ B → |k * y| ≤ k * B := by
      intro y B k hk h
      rw [abs_mul, abs_of_nonneg hk]
      exact mul_le_mul_of_nonneg_left h hk
    have b0 : |q0 s| ≤ M / c := dv m0
    have b1 : |q1 s| ≤ (M + M / c * E) / c := dv (sb m1 (ml b0 e1))
    have b2 : |q2 s| ≤ (M + 2 * ((M + M / c * E) / c * E) + M / c * E) / c :=
      dv (sb (sb m2 (sc (by norm_num) (ml b1 e1))) (ml b0 e2))
    exact dv (sb (sb (sb m3 (sc (by norm_num) (ml b2 e1))) (sc (by norm_num) (ml b1 e2))) (ml b0 e3))

/-- The accelerations of the cart-pole as functions of the angle. -/
theorem trig_quotient {nc ns nk nm m1 m2 : ℝ} (h1 : 0 < m1) (h2 : 0 ≤ m2) :
    let q := fun s => (nc + ns * Real.sin s + nk * Real.cos s + nm * (Real.sin s * Real.cos s)) / (m1 + m2 * (Real.sin s * Real.sin s))
    ∀ d a e : ℝ, HasDerivAt q d a → 0 < e →
      |(q (a + e) - q (a - e)) / (2 * e) - d| ≤ ratBound (|nc| + |ns| + |nk| + 4 * |nm|) (8 * m2) m1 * e ^ 2 / 6 := by
  intro q d a e hd he
  have ss : ∀ s, |Real.sin s| ≤ 1 := Real.abs_sin_le_one
  have cc : ∀ s, |Real.cos s| ≤ 1 := Real.abs_cos_le_one
  have sc : ∀ s, |Real.sin s * Real.cos s| ≤ 1 := fun s => by
    rw [abs_mul]; exact mul_le_one₀ (ss s) (abs_nonneg _) (cc s)
  have tt : ∀ s, |1 - 2 * (Real.sin s * Real.sin s)| ≤ 1 := fun s => by
    have := Real.sin_sq_add_cos_sq s
    rw [abs_le]
    constructor <;> nlinarith [sq_nonneg (Real.sin s), sq_nonneg (Real.cos s)]
  have bm : ∀ k {y : ℝ}, |y| ≤ 1 → |k * y| ≤ |k| := fun k y h => by
    rw [abs_mul]; exact mul_le_of_le_one_right (abs_nonneg _) h
  have dsc : ∀ s, HasDerivAt (fun s => Real.sin s * Real.cos s) (1 - 2 * (Real.sin s * Real.sin s)) s := by
    intro s
    refine ((Real.hasDerivAt_sin s).mul (Real.hasDerivAt_cos s)).congr_deriv ?_
    have := Real.sin_sq_add_cos_sq s
    linear_combination this
  have dss : ∀ s, HasDerivAt (fun s => Real.sin s * Real.sin s) (2 * (Real.sin s * Real.cos s)) s := by
    intro s
    refine ((Real.hasDerivAt_sin s).mul (Real.hasDerivAt_sin s)).congr_deriv ?_
    ring
  have dtt : ∀ s, HasDerivAt (fun s => 1 - 2 * (Real.sin s * Real.sin s)) (-4 * (Real.sin s * Real.cos s)) s := by
    intro s
    refine (((dss s).const_mul 2).const_sub 1).congr_deriv ?_
    ring
  have n0 : ∀ s, HasDerivAt (fun s => nc + ns * Real.sin s + nk * Real.cos s + nm * (Real.sin s * Real.cos s))
      (ns * Real.cos s - nk * Real.sin s + nm * (1 - 2 * (Real.sin s * Real.sin s))) s := by
    intro s
    refine (((((Real.hasDerivAt_sin s).const_mul ns).const_add nc).add ((Real.hasDerivAt_cos s).const_mul nk)).add
      ((dsc s).const_mul nm)).congr_deriv ?_
    ring
  have n1 : ∀ s, HasDerivAt (fun s => ns * Real.cos s - nk * Real.sin s + nm * (1 - 2 * (Real.sin s * Real.sin s)))
      (-ns * Real.sin s - nk * Real.cos s - 4 * nm * (Real.sin s * Real.cos s)) s := by
    intro s
    refine ((((Real.hasDerivAt_cos s).const_mul ns).sub ((Real.hasDerivAt_sin s).const_mul nk)).add
      ((dtt s).const_mul nm)).congr_deriv ?_
    ring
  have n2 : ∀ s, HasDerivAt (fun s => -ns * Real.sin s - nk * Real.cos s - 4 * nm * (Real.sin s * Real.cos s))
      (-ns * Real.cos s + nk * Real.sin s - 4 * nm * (1 - 2 * (Real.sin s * Real.sin s))) s := by
    intro s
    refine ((((Real.hasDerivAt_sin s).const_mul (-ns)).sub ((Real.hasDerivAt_cos s).const_mul nk)).sub
      ((dsc s).const_mul (4 * nm))).congr_deriv ?_
    ring
  have d0 : ∀ s, HasDerivAt (fun s => m1 + m2 * (Real.sin s * Real.sin s)) (2 * m2 * (Real.sin s * Real.cos s)) s := by
    intro s
    refine (((dss s).const_mul m2).const_add m1).congr_deriv ?_
    ring
  have d1 : ∀ s, HasDerivAt (fun s => 2 * m2 * (Real.sin s * Real.cos s)) (2 * m2 * (1 - 2 * (Real.sin s * Real.sin s))) s :=
    fun s => (dsc s).const_mul (2 * m2)
  have d2 : ∀ s, HasDerivAt (fun s => 2 * m2 * (1 - 2 * (Real.sin s * Real.sin s))) (-8 * m2 * (Real.sin s * Real.cos s)) s := by
    intro s
    refine ((dtt s).const_mul (2 * m2)).congr_deriv ?_
    ring
  have hD : ∀ s, m1 ≤ m1 + m2 * (Real.sin s * Real.sin s) := fun s =>
    le_add_of_nonneg_right (mul_nonneg h2 (mul_self_nonneg _))
  have f4 : |4 * nm| = 4 * |nm| := by rw [abs_mul]; norm_num
  have am := abs_nonneg nm
  have ac := abs_nonneg nc
  have bN : ∀ s, |nc + ns * Real.sin s + nk * Real.cos s + nm * (Real.sin s * Real.cos s)| ≤ |nc| + |ns| + |nk| + 4 * |nm| ∧
      |ns * Real.cos s - nk * Real.sin s + nm * (1 - 2 * (Real.sin s * Real.sin s))| ≤ |nc| + |ns| + |nk| + 4 * |nm| ∧
      |-ns * Real.sin s - nk * Real.cos s - 4 * nm * (Real.sin s * Real.cos s)| ≤ |nc| + |ns| + |nk| + 4 * |nm| ∧
      |-ns * Real.cos s + nk * Real.sin s - 4 * nm * (1 - 2 * (Real.sin s * Real.sin s))| ≤ |nc| + |ns| + |nk| + 4 * |nm| := by
    intro s
    have t1 := abs_le.1 (bm ns (ss s))
    have t2 := abs_le.1 (bm ns (cc s))
    have t3 := abs_le.1 (bm nk (ss s))
    have t4 := abs_le.1 (bm nk (cc s))
    have t5 := abs_le.1 (bm nm (sc s))
    have t6 := abs_le.1 (bm nm (tt s))
    have t7 := abs_le.1 (bm (4 * nm) (sc s))
    have t8 := abs_le.1 (bm (4 * nm) (tt s))
    have t9 := abs_le.1 (le_refl |nc|)
    rw [f4] at t7 t8
    refine ⟨?_, ?_, ?_, ?_⟩ <;> rw [abs_le] <;> constructor <;> linarith
  have bD : ∀ s, |2 * m2 * (Real.sin s * Real.cos s)| ≤ 8 * m2 ∧ |2 * m2 * (1 - 2 * (Real.sin s * Real.sin s))| ≤ 8 * m2 ∧
      |-8 * m2 * (Real.sin s * Real.cos s)| ≤ 8 * m2 := by
    intro s
    have u1 := bm (2 * m2) (sc s)
    have u2 := bm (2 * m2) (tt s)
    have u3 := bm (-8 * m2) (sc s)
    rw [abs_of_nonneg (by linarith : 0 ≤ 2 * m2)] at u1 u2
    rw [abs_of_nonpos (by linarith : -8 * m2 ≤ 0)] at u3
    exact ⟨by linarith, by linarith, by linarith⟩
  obtain ⟨q1, q2, q3, a0, a1, a2, -, hq3⟩ := quotient_third n0 n1 n2 d0 d1 d2 h1 hD bN bD
  have := C83_error a0 a1 a2 hq3 a he
  rwa [(a0 a).unique hd] at this

end Nmpc.Problems
