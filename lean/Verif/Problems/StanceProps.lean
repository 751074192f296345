import Verif.Problems.Refs
import Verif.Problems.RefsProps
import Mathlib.Tactic.LinearCombination

/-!
# C82: the stance data of the centroidal example

The sixteen force directions of a rectangular contact describe exactly the forces of a friction pyramid with coefficient 1/2 that act
at points of the rectangle.
-/

namespace Nmpc.Problems

open Finset

/-- A force in the friction pyramid: `|fx| + |fy| ≤ fz / 2`. -/
def InPyramid (f : Vec 3 ℝ) : Prop := |f 0| + |f 1| ≤ 1 / 2 * f 2

/-- A point of the rectangle with the corners `lo` and `hi` on the ground. -/
def InRect (lo hi : Vec 2 ℝ) (c : Vec 3 ℝ) : Prop :=
  (lo 0 ≤ c 0 ∧ c 0 ≤ hi 0) ∧ (lo 1 ≤ c 1 ∧ c 1 ≤ hi 1) ∧ c 2 = 0

/-- The four directions before the scaling. -/
noncomputable def dir (i : Fin 4) : Vec 3 ℝ := ![![1 / 2, 0, 1], ![0, 1 / 2, 1], ![-1 / 2, 0, 1], ![0, -1 / 2, 1]] i

theorem ridgeRaw_eq (i : Fin 4) : ridgeRaw i = dir i := by
  have h3 : (2 : ℝ) * Real.pi * (3 / 4) = Real.pi + Real.pi / 2 := by ring
  have h2 : (2 : ℝ) * Real.pi * (2 / 4) = Real.pi := by ring
  have h1 : (2 : ℝ) * Real.pi * 4⁻¹ = Real.pi / 2 := by ring
  ext j
  fin_cases i <;> fin_cases j <;>
    simp [ridgeRaw, ridgeAngle, dir, h1, h2, h3, Real.cos_add, Real.sin_add] <;> norm_num

theorem sqNorm_dir (i : Fin 4) : sqNorm (dir i) = 5 / 4 := by
  fin_cases i <;> simp [sqNorm, dir, dotProduct, Fin.sum_univ_three] <;> norm_num

theorem ridge_eq (i : Fin 4) (j : Fin 3) : ridge i j = dir i j * (2 / Real.sqrt 5) := by
  have h : sqNorm (ridgeRaw i) = 5 / 4 := by rw [ridgeRaw_eq, sqNorm_dir]
  have hv : vnorm (ridgeRaw i) = Real.sqrt 5 / 2 := by
    rw [vnorm, h, sqrt_real, Real.sqrt_div (by norm_num), show (4 : ℝ) = 2 ^ 2 by norm_num, Real.sqrt_sq (by norm_num)]
  rw [ridge, if_pos (by rw [h]; norm_num), hv, ridgeRaw_eq]
  have : Real.sqrt 5 ≠ 0 := by positivity
  field_simp

/-- The coefficient of vertex `i` and ridge `j`. -/
def coef (u : Vec 16 ℝ) (i j : Fin 4) : ℝ := u ⟨4 * i + j, by omega⟩

theorem sum16 (F : Fin 4 → Fin 4 → ℝ → ℝ) (u : Vec 16 ℝ) :
    (∑ c : Fin 16, F ⟨(c : ℕ) / 4, by omega⟩ ⟨(c : ℕ) % 4, by omega⟩ (u c)) = ∑ i, ∑ j, F i j (coef u i j) := by
  rw [← Fintype.sum_prod_type' (fun i j => F i j (coef u i j))]
  rw [← Equiv.sum_comp (finProdFinEquiv (m := 4) (n := 4))]
  refine Finset.sum_congr rfl fun p _ => ?_
  obtain ⟨i, j⟩ := p
  have e1 : (⟨((finProdFinEquiv (i, j) : Fin 16) : ℕ) / 4, by omega⟩ : Fin 4) = i := by
    ext; simp [finProdFinEquiv]; omega
  have e2 : (⟨((finProdFinEquiv (i, j) : Fin 16) : ℕ) % 4, by omega⟩ : Fin 4) = j := by
    ext; simp [finProdFinEquiv]
  have e3 : u (finProdFinEquiv (i, j)) = coef u i j := by
    rw [coef]; congr 1; ext; simp [finProdFinEquiv]; omega
  rw [e3]
  exact congrArg₂ (fun a b => F a b (coef u i j)) e1 e2

variable (lo hi : Vec 2 ℝ)

theorem force_eq (u : Vec 16 ℝ) (r : Fin 3) :
    (FOps.mulVec (makeStanceDataFromRect lo hi).ridges u : Vec 3 ℝ) r = 2 / Real.sqrt 5 * ∑ i, ∑ j, coef u i j * dir j r := by
  refine (congrFun (mulVec_real (makeStanceDataFromRect lo hi).ridges u) r).trans ?_
  show (∑ c : Fin 16, ridge ⟨(c : ℕ) % 4, by omega⟩ r * u c) = _
  rw [sum16 (fun i j a => ridge j r * a) u]
  simp only [mul_sum, ridge_eq]
  exact sum_congr rfl fun i _ => sum_congr rfl fun j _ => by ring

theorem moment_eq (u : Vec 16 ℝ) (com : Vec 3 ℝ) (r : Fin 3) :
    Centroidal.moment (makeStanceDataFromRect lo hi).vertices (makeStanceDataFromRect lo hi).ridges com u r =
      2 / Real.sqrt 5 * ∑ i, ∑ j, coef u i j * cross (rectVertex lo hi i - com) (dir j) r := by
  refine (congrFun (moment_real (makeStanceDataFromRect lo hi).vertices (makeStanceDataFromRect lo hi).ridges com u) r).trans ?_
  rw [Finset.sum_apply]
  show (∑ c : Fin 16, u c * cross (rectVertex lo hi ⟨(c : ℕ) / 4, by omega⟩ - com) (ridge ⟨(c : ℕ) % 4, by omega⟩) r) = _
  rw [sum16 (fun i j a => a * cross (rectVertex lo hi i - com) (ridge j) r) u]
  simp only [mul_sum]
  refine sum_congr rfl fun i _ => sum_congr rfl fun j _ => ?_
  have : ∀ a : Vec 3 ℝ, cross a (ridge j) r = 2 / Real.sqrt 5 * cross a (dir j) r := by
    intro a
    fin_cases r <;> simp [cross, ridge_eq] <;> ring
  rw [this]
  ring

/-- **C82** The columns of the stance data are sixteen pairs of a corner of the rectangle (at height zero) and a unit direction; the
direction makes the angle `arctan (1/2)` with the vertical. -/
theorem C82_shape (hlo : lo 0 ≤ hi 0) (hlo' : lo 1 ≤ hi 1) :
    (makeStanceDataFromRect lo hi).k = 16 ∧
    (∀ c, InRect lo hi (colM (makeStanceDataFromRect lo hi).vertices c)) ∧
    (∀ c, sqNorm (colM (makeStanceDataFromRect lo hi).ridges c) = 1) ∧
    ∀ c, let r := colM (makeStanceDataFromRect lo hi).ridges c
      0 < r 2 ∧ |r 0| + |r 1| = 1 / 2 * r 2 := by
  have h5 : 0 < Real.sqrt 5 := by positivity
  refine ⟨rfl, fun c => ?_, fun c => ?_, fun c => ?_⟩
  · have : colM (makeStanceDataFromRect lo hi).vertices c = rectVertex lo hi ⟨(c : ℕ) / 4, by have : (c : ℕ) < 16 := c.2; omega⟩ := rfl
    rw [this]
    generalize (⟨(c : ℕ) / 4, _⟩ : Fin 4) = i
    fin_cases i <;> simp [InRect, rectVertex, hlo, hlo']
  · have : colM (makeStanceDataFromRect lo hi).ridges c = ridge ⟨(c : ℕ) % 4, by omega⟩ := rfl
    rw [this]
    generalize (⟨(c : ℕ) % 4, _⟩ : Fin 4) = i
    have e : sqNorm (ridge i) = sqNorm (dir i) * (2 / Real.sqrt 5) ^ 2 := by
      simp only [sqNorm_real, dotProduct, Fin.sum_univ_three, ridge_eq]
      ring
    rw [e, sqNorm_dir, div_pow, Real.sq_sqrt (by norm_num)]
    norm_num
  · have : colM (makeStanceDataFromRect lo hi).ridges c = ridge ⟨(c : ℕ) % 4, by omega⟩ := rfl
    simp only [this]
    generalize (⟨(c : ℕ) % 4, _⟩ : Fin 4) = i
    have p : 0 < 2 / Real.sqrt 5 := by positivity
    simp only [ridge_eq, abs_mul, abs_of_pos p]
    fin_cases i <;> simp [dir, h5, abs_of_pos] <;> norm_num

/-- **C82** With force scales that are not negative, the total force lies in the friction pyramid, and if there is any force the
moment about some point of the rectangle (the centre of pressure) has no horizontal component. -/
theorem C82_sound (hlo : lo 0 ≤ hi 0) (hlo' : lo 1 ≤ hi 1) (u : Vec 16 ℝ) (hu : ∀ c, 0 ≤ u c) :
    let S := makeStanceDataFromRect lo hi
    let f : Vec 3 ℝ := FOps.mulVec S.ridges u
    InPyramid f ∧ (u ≠ 0 → 0 < f 2 ∧ ∃ c, InRect lo hi c ∧
      Centroidal.moment S.vertices S.ridges c u 0 = 0 ∧ Centroidal.moment S.vertices S.ridges c u 1 = 0) := by
  intro S f
  have p : 0 < 2 / Real.sqrt 5 := by positivity
  have hw : ∀ i j, 0 ≤ coef u i j := fun i j => hu _
  have hf : ∀ r, f r = 2 / Real.sqrt 5 * ∑ i, ∑ j, coef u i j * dir j r := force_eq lo hi u
  have e0 : (∑ i, ∑ j, coef u i j * dir j 0) = 1 / 2 * ((∑ i, coef u i 0) - ∑ i, coef u i 2) := by
    simp [Fin.sum_univ_four, dir]; ring
  have e1 : (∑ i, ∑ j, coef u i j * dir j 1) = 1 / 2 * ((∑ i, coef u i 1) - ∑ i, coef u i 3) := by
    simp [Fin.sum_univ_four, dir]; ring
  have e2 : (∑ i, ∑ j, coef u i j * dir j 2) = ∑ i, ∑ j, coef u i j := by
    simp [Fin.sum_univ_four, dir]
  have e3 : (∑ i, ∑ j, coef u i j) = (∑ i, coef u i 0) + (∑ i, coef u i 1) + (∑ i, coef u i 2) + ∑ i, coef u i 3 := by
    simp [Fin.sum_univ_four]; ring
  have q : ∀ j, 0 ≤ ∑ i, coef u i j := fun j => sum_nonneg fun i _ => hw i j
  constructor
  · unfold InPyramid
    rw [hf 0, hf 1, hf 2, e0, e1, e2, e3, abs_mul (2 / _), abs_mul (2 / _), abs_of_pos p, ← mul_add, mul_left_comm]
    refine mul_le_mul_of_nonneg_left ?_ p.le
    have a1 : |1 / 2 * ((∑ i, coef u i 0) - ∑ i, coef u i 2)| ≤ 1 / 2 * ((∑ i, coef u i 0) + ∑ i, coef u i 2) := by
      rw [abs_le]; constructor <;> linarith [q 0, q 2]
    have a2 : |1 / 2 * ((∑ i, coef u i 1) - ∑ i, coef u i 3)| ≤ 1 / 2 * ((∑ i, coef u i 1) + ∑ i, coef u i 3) := by
      rw [abs_le]; constructor <;> linarith [q 1, q 3]
    linarith
  · intro hne
    have hN : 0 < ∑ i, ∑ j, coef u i j := by
      obtain ⟨c, hc⟩ := Function.ne_iff.1 hne
      have hc' : 0 < u c := lt_of_le_of_ne (hu c) (Ne.symm hc)
      have : u c = coef u ⟨(c : ℕ) / 4, by omega⟩ ⟨(c : ℕ) % 4, by omega⟩ := by
        rw [coef]; congr 1; ext; simp; omega
      rw [this] at hc'
      refine lt_of_lt_of_le hc' (le_trans ?_ (single_le_sum (f := fun i => ∑ j, coef u i j)
        (fun i _ => sum_nonneg fun j _ => hw i j) (mem_univ ⟨(c : ℕ) / 4, by omega⟩)))
      exact single_le_sum (f := fun j => coef u ⟨(c : ℕ) / 4, by omega⟩ j) (fun j _ => hw _ j) (mem_univ _)
    refine ⟨by rw [hf 2, e2]; exact mul_pos p hN, ?_⟩
    obtain ⟨n, hn⟩ : ∃ n : Fin 4 → ℝ, n = fun i => ∑ j, coef u i j := ⟨_, rfl⟩
    have hn0 : ∀ i, 0 ≤ n i := fun i => by rw [hn]; exact sum_nonneg fun j _ => hw i j
    have hNn : (∑ i, ∑ j, coef u i j) = n 0 + n 1 + n 2 + n 3 := by rw [hn]; simp [Fin.sum_univ_four]
    rw [hNn] at hN
    refine ⟨![(n 0 * lo 0 + n 1 * lo 0 + n 2 * hi 0 + n 3 * hi 0) / (n 0 + n 1 + n 2 + n 3),
      (n 0 * lo 1 + n 1 * hi 1 + n 2 * hi 1 + n 3 * lo 1) / (n 0 + n 1 + n 2 + n 3), 0], ?_, ?_, ?_⟩
    · simp only [InRect, Matrix.cons_val_zero, Matrix.cons_val_one, Matrix.cons_val, le_div_iff₀ hN, div_le_iff₀ hN]
      refine ⟨⟨?_, ?_⟩, ⟨?_, ?_⟩, trivial⟩ <;>
        nlinarith [mul_le_mul_of_nonneg_left hlo (hn0 0), mul_le_mul_of_nonneg_left hlo (hn0 1),
          mul_le_mul_of_nonneg_left hlo (hn0 2), mul_le_mul_of_nonneg_left hlo (hn0 3),
          mul_le_mul_of_nonneg_left hlo' (hn0 0), mul_le_mul_of_nonneg_left hlo' (hn0 1),
          mul_le_mul_of_nonneg_left hlo' (hn0 2), mul_le_mul_of_nonneg_left hlo' (hn0 3)]
    · rw [moment_eq]
      refine mul_eq_zero_of_right _ ?_
      have hc := div_mul_cancel₀ (n 0 * lo 1 + n 1 * hi 1 + n 2 * hi 1 + n 3 * lo 1) hN.ne'
      have hn' : ∀ i, n i = coef u i 0 + coef u i 1 + coef u i 2 + coef u i 3 := fun i => by rw [hn]; simp [Fin.sum_univ_four]
      generalize (n 0 * lo 1 + n 1 * hi 1 + n 2 * hi 1 + n 3 * lo 1) / (n 0 + n 1 + n 2 + n 3) = y at *
      simp [Fin.sum_univ_four, cross, rectVertex, dir]
      simp only [hn'] at hc
      linear_combination -hc
    · rw [moment_eq]
      refine mul_eq_zero_of_right _ ?_
      have hc := div_mul_cancel₀ (n 0 * lo 0 + n 1 * lo 0 + n 2 * hi 0 + n 3 * hi 0) hN.ne'
      have hn' : ∀ i, n i = coef u i 0 + coef u i 1 + coef u i 2 + coef u i 3 := fun i => by rw [hn]; simp [Fin.sum_univ_four]
      generalize (n 0 * lo 0 + n 1 * lo 0 + n 2 * hi 0 + n 3 * hi 0) / (n 0 + n 1 + n 2 + n 3) = y at *
      simp [Fin.sum_univ_four, cross, rectVertex, dir]
      simp only [hn'] at hc
      linear_combination hc

/-- **C82** Conversely, every force of the friction pyramid that acts at a point of the rectangle is produced by some force scales that
are not negative: they give that force, and about every point its moment. -/
theorem C82_complete (f c : Vec 3 ℝ) (hf : InPyramid f) (hc : InRect lo hi c) :
    let S := makeStanceDataFromRect lo hi
    ∃ u : Vec 16 ℝ, (∀ i, 0 ≤ u i) ∧ (FOps.mulVec S.ridges u : Vec 3 ℝ) = f ∧
      ∀ com : Vec 3 ℝ, Centroidal.moment S.vertices S.ridges com u = cross (c - com) f := by
  intro S
  have p : 0 < 2 / Real.sqrt 5 := by positivity
  have bary : ∀ a b x : ℝ, a ≤ x → x ≤ b → ∃ l, 0 ≤ l ∧ l ≤ 1 ∧ x = (1 - l) * a + l * b := by
    intro a b x h1 h2
    rcases eq_or_lt_of_le (h1.trans h2) with h | h
    · exact ⟨0, le_refl _, zero_le_one, by linarith⟩
    · refine ⟨(x - a) / (b - a), div_nonneg (by linarith) (by linarith), (div_le_one (by linarith)).2 (by linarith), ?_⟩
      have : b - a ≠ 0 := by linarith
      field_simp
      ring
  obtain ⟨⟨hx1, hx2⟩, ⟨hy1, hy2⟩, hz⟩ := hc
  obtain ⟨l, l0, l1, hl⟩ := bary _ _ _ hx1 hx2
  obtain ⟨m, m0, m1, hm⟩ := bary _ _ _ hy1 hy2
  unfold InPyramid at hf
  obtain ⟨A, hA⟩ : ∃ A : Fin 4 → ℝ, A = ![(1 - l) * (1 - m), (1 - l) * m, l * m, l * (1 - m)] := ⟨_, rfl⟩
  obtain ⟨e, he⟩ : ∃ e : ℝ, e = (f 2 - 2 * (|f 0| + |f 1|)) / 4 := ⟨_, rfl⟩
  obtain ⟨P, hP⟩ : ∃ P : Fin 4 → ℝ, P = ![|f 0| + f 0 + e, |f 1| + f 1 + e, |f 0| - f 0 + e, |f 1| - f 1 + e] := ⟨_, rfl⟩
  have he0 : 0 ≤ e := by rw [he]; linarith
  have hA0 : ∀ i, 0 ≤ A i := by
    have : 0 ≤ 1 - l := by linarith
    have : 0 ≤ 1 - m := by linarith
    intro i; rw [hA]; fin_cases i <;> simp <;> positivity
  have hP0 : ∀ i, 0 ≤ P i := by
    intro i
    rw [hP]
    fin_cases i <;> simp <;>
      linarith [neg_abs_le (f 0), neg_abs_le (f 1), le_abs_self (f 0), le_abs_self (f 1)]
  refine ⟨fun k => A ⟨(k : ℕ) / 4, by omega⟩ * (P ⟨(k : ℕ) % 4, by omega⟩ / (2 / Real.sqrt 5)), ?_, ?_, ?_⟩
  · intro k
    exact mul_nonneg (hA0 _) (div_nonneg (hP0 _) p.le)
  all_goals
    have hco : ∀ i j, coef (fun k : Fin 16 => A ⟨(k : ℕ) / 4, by omega⟩ * (P ⟨(k : ℕ) % 4, by omega⟩ / (2 / Real.sqrt 5))) i j =
        A i * (P j / (2 / Real.sqrt 5)) := by
      intro i j
      have e1 : (⟨(4 * (i : ℕ) + j) / 4, by omega⟩ : Fin 4) = i := Fin.ext (by show (4 * (i : ℕ) + j) / 4 = i; omega)
      have e2 : (⟨(4 * (i : ℕ) + j) % 4, by omega⟩ : Fin 4) = j := Fin.ext (by show (4 * (i : ℕ) + j) % 4 = j; omega)
      simp only [coef, e1, e2]
  · ext r
    rw [force_eq]
    simp only [hco, mul_sum]
    have : ∀ i j, 2 / Real.sqrt 5 * (A i * (P j / (2 / Real.sqrt 5)) * dir j r) = A i * (P j * dir j r) := by
      intro i j
      field_simp
    simp only [this]
    fin_cases r <;> simp [Fin.sum_univ_four, dir, hA, hP, he] <;> ring
  · intro com
    ext r
    rw [moment_eq]
    simp only [hco, mul_sum]
    have : ∀ i j, 2 / Real.sqrt 5 * (A i * (P j / (2 / Real.sqrt 5)) * cross (rectVertex lo hi i - com) (dir j) r) =
        A i * (P j * cross (rectVertex lo hi i - com) (dir j) r) := by
      intro i j
      field_simp
    simp only [this]
    fin_cases r <;> simp [Fin.sum_univ_four, dir, cross, rectVertex, hA, hP, he, hl, hm, hz] <;> ring

/-- **C82** The contact schedule of the test at the sampling times `k * 0.03`, also when the time is off by less than `1e-6`: standing on
the first rectangle up to sample 46, in flight (no input at all) from 47 to 53, on the second rectangle from 54 on; the reference
position changes at sample 50, in the middle of the flight. -/
theorem C82_sampled (k : ℕ) (t : ℝ) (ht : |t - k * 0.03| < 1e-6) :
    (k < 47 → Centroidal.refStanceFunc t = makeStanceDataFromRect ![-0.1, -0.1] ![0.1, 0.1]) ∧
    (47 ≤ k → k < 54 → Centroidal.refStanceFunc t = ⟨0, fun _ _ => 0, fun _ _ => 0⟩) ∧
    (54 ≤ k → Centroidal.refStanceFunc t = makeStanceDataFromRect ![0.4, -0.1] ![0.6, 0.1]) ∧
    Centroidal.testProblem.k t = (if 47 ≤ k ∧ k < 54 then 0 else 16) ∧
    Centroidal.refPosFunc t = if k < 50 then ![0, 0, 1] else ![0.5, 0, 1] := by
  obtain ⟨l, u⟩ := abs_lt.1 ht
  have he : epsT = 1e-6 := by norm_num [epsT]
  have h14 : (lit (14 / 10) : ℝ) = 1.4 := by norm_num
  have h16 : (lit (16 / 10) : ℝ) = 1.6 := by norm_num
  have h15 : (lit (3 / 2) : ℝ) = 1.5 := by norm_num
  have a1 : k < 47 → t + 1e-6 < 1.4 := by
    intro h
    have : (k : ℝ) ≤ 46 := by exact_mod_cast (by omega : k ≤ 46)
    norm_num at u ⊢; linarith
  have a2 : 47 ≤ k → ¬ t + 1e-6 < 1.4 := by
    intro h
    have : (47 : ℝ) ≤ k := by exact_mod_cast h
    norm_num at l ⊢; linarith
  have a3 : k < 54 → t + 1e-6 < 1.6 := by
    intro h
    have : (k : ℝ) ≤ 53 := by exact_mod_cast (by omega : k ≤ 53)
    norm_num at u ⊢; linarith
  have a4 : 54 ≤ k → ¬ t + 1e-6 < 1.6 := by
    intro h
    have : (54 : ℝ) ≤ k := by exact_mod_cast h
    norm_num at l ⊢; linarith
  have b1 : k < 47 → Centroidal.refStanceFunc t = makeStanceDataFromRect ![-0.1, -0.1] ![0.1, 0.1] := by
    intro h
    simp only [Centroidal.refStanceFunc, he, h14, h16]
    rw [if_pos (a1 h)]
    norm_num
  have b2 : 47 ≤ k → k < 54 → Centroidal.refStanceFunc t = ⟨0, fun _ _ => 0, fun _ _ => 0⟩ := by
    intro h h'
    simp only [Centroidal.refStanceFunc, he, h14, h16]
    rw [if_neg (a2 h), if_pos (a3 h')]
  have b3 : 54 ≤ k → Centroidal.refStanceFunc t = makeStanceDataFromRect ![0.4, -0.1] ![0.6, 0.1] := by
    intro h
    simp only [Centroidal.refStanceFunc, he, h14, h16]
    rw [if_neg (a2 (by omega)), if_neg (a4 h)]
    norm_num
  refine ⟨b1, b2, b3, ?_, ?_⟩
  · show (Centroidal.refStanceFunc t).k = _
    rcases lt_or_ge k 47 with h | h
    · rw [b1 h, if_neg (by omega)]; rfl
    · rcases lt_or_ge k 54 with h' | h'
      · rw [b2 h h', if_pos ⟨h, h'⟩]
      · rw [b3 h', if_neg (by omega)]; rfl
  · simp only [Centroidal.refPosFunc, he, h15]
    split_ifs with c1 c2 c2
    · simp
    · have : (50 : ℝ) ≤ k := by exact_mod_cast (by omega : 50 ≤ k)
      norm_num at l c1
      linarith
    · have : (k : ℝ) ≤ 49 := by exact_mod_cast (by omega : k ≤ 49)
      norm_num at u c1
      linarith
    · norm_num

/-- **C82** During stance the robot can stand still at every posture whose centre of mass is above the contact rectangle, with force
scales that are not negative: there is an input for which the step of `stateEq` changes nothing. -/
theorem C82_stationary (dt t : ℝ) (h : Centroidal.refStanceFunc t = makeStanceDataFromRect lo hi) (com : Vec 3 ℝ)
    (hx : lo 0 ≤ com 0 ∧ com 0 ≤ hi 0) (hy : lo 1 ≤ com 1 ∧ com 1 ≤ hi 1) :
    ∃ u : Vec (Centroidal.testProblem.k t) ℝ, (∀ i, 0 ≤ u i) ∧
      (Centroidal.testProblem.ddp dt).stateEq t ![com 0, com 1, com 2, 0, 0, 0, 0, 0, 0] u =
        ![com 0, com 1, com 2, 0, 0, 0, 0, 0, 0] := by
  obtain ⟨x, hxx⟩ : ∃ x : Vec 9 ℝ, x = ![com 0, com 1, com 2, 0, 0, 0, 0, 0, 0] := ⟨_, rfl⟩
  rw [← hxx]
  let Q : StanceData → Prop := fun S => ∃ u : Vec S.k ℝ, (∀ i, 0 ≤ u i) ∧
    x + smulv dt (stack3 (fun i => seg3 x i / lit 100) (FOps.mulVec S.ridges u - smulv (lit 100) grav3)
      (Centroidal.moment S.vertices S.ridges (seg0 x) u)) = x
  show Q (Centroidal.refStanceFunc t)
  rw [h]
  obtain ⟨u, hu, hf, hm⟩ := C82_complete lo hi ![0, 0, 980.665] ![com 0, com 1, 0]
    (by simp only [InPyramid, Matrix.cons_val_zero, Matrix.cons_val_one, Matrix.cons_val]; norm_num) (by simp only [InRect]; exact ⟨hx, hy, rfl⟩)
  refine ⟨u, hu, ?_⟩
  have hm' := hm (seg0 x)
  have e : stack3 (fun i => seg3 x i / lit 100) (FOps.mulVec (makeStanceDataFromRect lo hi).ridges u - smulv (lit 100) grav3)
      (Centroidal.moment (makeStanceDataFromRect lo hi).vertices (makeStanceDataFromRect lo hi).ridges (seg0 x) u) = 0 := by
    rw [hm', hf]
    ext i
    fin_cases i <;> simp [stack3, seg3, seg0, cross, hxx, grav3]
    norm_num
  rw [e]
  simp

/-- **C82** In flight the step is the ballistic one, whatever the state: the horizontal momentum and the angular momentum stay, the
vertical momentum loses `m g dt`. -/
theorem C82_flight (dt t : ℝ) (h : Centroidal.refStanceFunc t = ⟨0, fun _ _ => 0, fun _ _ => 0⟩) (x : Vec 9 ℝ)
    (u : Vec (Centroidal.testProblem.k t) ℝ) :
    (Centroidal.testProblem.ddp dt).stateEq t x u =
      ![x 0 + dt * (x 3 / 100), x 1 + dt * (x 4 / 100), x 2 + dt * (x 5 / 100), x 3, x 4, x 5 - dt * 980.665, x 6, x 7, x 8] := by
  let Q : StanceData → Prop := fun S => ∀ u : Vec S.k ℝ,
    x + smulv dt (stack3 (fun i => seg3 x i / lit 100) (FOps.mulVec S.ridges u - smulv (lit 100) grav3)
      (Centroidal.moment S.vertices S.ridges (seg0 x) u)) =
      ![x 0 + dt * (x 3 / 100), x 1 + dt * (x 4 / 100), x 2 + dt * (x 5 / 100), x 3, x 4, x 5 - dt * 980.665, x 6, x 7, x 8]
  suffices hQ : Q (Centroidal.refStanceFunc t) from hQ u
  rw [h]
  intro u
  have h0 : (FOps.mulVec (fun _ _ => 0 : Mat 3 0 ℝ) u : Vec 3 ℝ) = 0 := by
    refine (mulVec_real (fun _ _ => 0 : Mat 3 0 ℝ) u).trans ?_
    ext i; simp [Matrix.mulVec, dotProduct]
  have h1 : Centroidal.moment (fun _ _ => 0 : Mat 3 0 ℝ) (fun _ _ => 0 : Mat 3 0 ℝ) (seg0 x) u = 0 := by
    refine (moment_real (fun _ _ => 0 : Mat 3 0 ℝ) (fun _ _ => 0 : Mat 3 0 ℝ) (seg0 x) u).trans ?_
    simp
  have e : x + smulv dt (stack3 (fun i => seg3 x i / lit 100) ((0 : Vec 3 ℝ) - smulv (lit 100) grav3) 0) =
      ![x 0 + dt * (x 3 / 100), x 1 + dt * (x 4 / 100), x 2 + dt * (x 5 / 100), x 3, x 4, x 5 - dt * 980.665, x 6, x 7, x 8] := by
    ext i
    fin_cases i <;> simp [stack3, seg3, grav3]
    norm_num
    ring
  rw [← e]
  exact congrArg₂ (fun a b => x + smulv dt (stack3 (fun i => seg3 x i / lit 100) (a - smulv (lit 100) grav3) b)) h0 h1

/-! ## Concrete cases -/

/-- The initial state of the test can be kept at the first sample, and the final reference from sample 54 on. -/
example : (∃ u : Vec (Centroidal.testProblem.k 0) ℝ, (∀ i, 0 ≤ u i) ∧
      (Centroidal.testProblem.ddp 0.03).stateEq 0 ![0, 0, 1, 0, 0, 0, 0, 0, 0] u = ![0, 0, 1, 0, 0, 0, 0, 0, 0]) ∧
    ∃ u : Vec (Centroidal.testProblem.k 1.62) ℝ, (∀ i, 0 ≤ u i) ∧
      (Centroidal.testProblem.ddp 0.03).stateEq 1.62 ![0.5, 0, 1, 0, 0, 0, 0, 0, 0] u = ![0.5, 0, 1, 0, 0, 0, 0, 0, 0] := by
  have h0 := (C82_sampled 0 0 (by norm_num)).1 (by norm_num)
  have h1 := (C82_sampled 54 1.62 (by norm_num)).2.2.1 (by norm_num)
  exact ⟨C82_stationary _ _ 0.03 0 h0 ![0, 0, 1] (by norm_num) (by norm_num),
    C82_stationary _ _ 0.03 1.62 h1 ![0.5, 0, 1] (by norm_num) (by norm_num)⟩

/-- A negative force scale leaves the pyramid: nothing keeps the forces of the unconstrained solver inside. -/
example : ¬ InPyramid (FOps.mulVec (makeStanceDataFromRect ![-0.1, -0.1] ![0.1, 0.1]).ridges (fun _ : Fin 16 => (-1 : ℝ))) := by
  unfold InPyramid
  rw [force_eq, force_eq, force_eq]
  have p : 0 < 2 / Real.sqrt 5 := by positivity
  simp [Fin.sum_univ_four, dir, coef]
  norm_num

end Nmpc.Problems
