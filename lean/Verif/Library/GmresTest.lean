import Verif.Library.Ldlt
import Verif.CGMRES.GmresProps

/-!
# The unit test of GMRES (C87)

`nmpc_cgmres/tests/src/TestGmres.cpp` solves random systems with entries in `[-1, 1]` and expects the average residual to be below a
threshold.  Model of `eval` (TestGmres.cpp 67-95) and what follows, in exact arithmetic, about the expectations for *all* systems.
-/

namespace Nmpc.Library

open Matrix

section Model
variable {α : Type} [Add α] [Sub α] [Mul α] [Div α] [Neg α] [Zero α] [One α] [FOps α] {n : ℕ}

/-- A `LinearSolver` (TestGmres.cpp 9-17): matrix, right-hand side, initial `x`. -/
abbrev LinearSolver (n : ℕ) (α : Type) := Mat n n α → Vec n α → Vec n α → Res (Vec n α)

/-- `GmresLinearSolver` (TestGmres.cpp 19-39); `eps` is the default argument of `Gmres::solve` (Gmres.h 46). -/
def gmresSolver (L : Gmres.Dense α) (kMax : ℤ) (makeTriangular applyReorth : Bool) : LinearSolver n α := fun A b x =>
  (Gmres.solveMat L { makeTriangular := makeTriangular, applyReorth := applyReorth, kMax := kMax, eps := lit (1 / 10 ^ 10) } A b x).map
    fun r => r.x

/-- `FullPivLuLinearSolver` (TestGmres.cpp 41-52). -/
def fullPivLuSolver : LinearSolver n α := fun A b _ => .ok (luSolve A b)

/-- `HouseholderQrLinearSolver` (TestGmres.cpp 54-65). -/
def householderQrSolver : LinearSolver n α := fun A b _ => .ok (qrSolve A b)

/-- The loop of `eval` (TestGmres.cpp 75-88); a missing `b_list[i]` is undefined behaviour. -/
def evalLoop (solver : LinearSolver n α) : List (Mat n n α) → List (Vec n α) → α → Res α
  | [], _, err => .ok err
  | _ :: _, [], _ => .ub
  | A :: As, b :: bs, err =>
    (solver A b fun _ => 0).bind fun x => evalLoop solver As bs (err + vnorm (FOps.mulVec A x - b))

/-- `eval` (TestGmres.cpp 67-95): the average error (the times are not modelled). -/
def eval (solver : LinearSolver n α) (As : List (Mat n n α)) (bs : List (Vec n α)) : Res α :=
  (evalLoop solver As bs 0).map fun err => err / lit (As.length : ℚ)

end Model

variable {n : ℕ}

theorem evalLoop_real {solver : LinearSolver n ℝ} {lo hi : ℝ} : ∀ {As : List (Mat n n ℝ)} {bs : List (Vec n ℝ)} {err : ℝ},
    As.length = bs.length →
    (∀ A ∈ As, ∀ b ∈ bs, ∃ x, solver A b 0 = .ok x ∧ lo ≤ Gmres.norm2 (A *ᵥ x - b) ∧ Gmres.norm2 (A *ᵥ x - b) ≤ hi) →
    ∃ e, evalLoop solver As bs err = .ok e ∧ err + As.length * lo ≤ e ∧ e ≤ err + As.length * hi
  | [], _, err, _, _ => ⟨err, rfl, by simp, by simp⟩
  | A :: As, [], err, h, _ => by simp at h
  | A :: As, b :: bs, err, h, hs => by
    obtain ⟨x, hx, h1, h2⟩ := hs A (by simp) b (by simp)
    obtain ⟨e, he, h3, h4⟩ := evalLoop_real (solver := solver) (As := As) (bs := bs) (err := err + Gmres.norm2 (A *ᵥ x - b))
      (by simpa using h) fun A hA b hb => hs A (by simp [hA]) b (by simp [hb])
    refine ⟨e, ?_, ?_, ?_⟩
    · rw [evalLoop]
      change (solver A b 0).bind _ = _
      rw [hx, Res.bind_ok, Gmres.vnorm_norm2, mulVec_real]
      exact he
    · simp only [List.length_cons, Nat.cast_add, Nat.cast_one]
      linarith
    · simp only [List.length_cons, Nat.cast_add, Nat.cast_one]
      linarith

theorem eval_real {solver : LinearSolver n ℝ} {lo hi : ℝ} {As : List (Mat n n ℝ)} {bs : List (Vec n ℝ)} (h0 : As ≠ [])
    (hl : As.length = bs.length)
    (hs : ∀ A ∈ As, ∀ b ∈ bs, ∃ x, solver A b 0 = .ok x ∧ lo ≤ Gmres.norm2 (A *ᵥ x - b) ∧ Gmres.norm2 (A *ᵥ x - b) ≤ hi) :
    ∃ e, eval solver As bs = .ok e ∧ lo ≤ e ∧ e ≤ hi := by
  obtain ⟨e, he, h1, h2⟩ := evalLoop_real (err := 0) hl hs
  have hp : (0 : ℝ) < As.length := by exact_mod_cast List.length_pos_iff.2 h0
  refine ⟨e / As.length, ?_, ?_, ?_⟩
  · unfold eval
    rw [he]
    simp [Res.map]
  · rw [le_div_iff₀ hp]; linarith
  · rw [div_le_iff₀ hp]; linarith

theorem norm2_sub_comm (v w : Vec n ℝ) : Gmres.norm2 (v - w) = Gmres.norm2 (w - v) := by
  unfold Gmres.norm2
  rw [← norm_neg]
  congr 1
  simp

theorem norm2_le_sqrt {b : Vec n ℝ} (hb : ∀ i, |b i| ≤ 1) : Gmres.norm2 b ≤ Real.sqrt n := by
  rw [← Gmres.vnorm_norm2, Gmres.vnorm_real]
  refine Real.sqrt_le_sqrt ?_
  have : ∀ i ∈ Finset.univ, b i * b i ≤ 1 := fun i _ => by
    have := hb i
    rw [abs_le] at this
    nlinarith
  calc b ⬝ᵥ b ≤ ∑ _i : Fin n, (1 : ℝ) := Finset.sum_le_sum this
    _ = n := by simp

theorem gmresSolver_ok (L : Gmres.Dense ℝ) {kMax : ℤ} (hk : 0 ≤ kMax) (mt ar : Bool) (A : Mat n n ℝ) (b x : Vec n ℝ) :
    ∃ r, Gmres.solveMat L { makeTriangular := mt, applyReorth := ar, kMax := kMax, eps := lit (1 / 10 ^ 10) } A b x = .ok r ∧
      gmresSolver L kMax mt ar A b x = .ok r.x := by
  obtain ⟨r, hr⟩ := (Gmres.C46_total L { makeTriangular := mt, applyReorth := ar, kMax := kMax, eps := lit (1 / 10 ^ 10) }
    (A *ᵥ ·) b x).2 hk
  have hr' : Gmres.solveMat L { makeTriangular := mt, applyReorth := ar, kMax := kMax, eps := lit (1 / 10 ^ 10) } A b x = .ok r := hr
  exact ⟨r, hr', by unfold gmresSolver; rw [hr']; rfl⟩

/-- **C87** Full iterations (`k_max` at least the size; any setting of the two switches), nonsingular matrices and right-hand sides with
entries in `[-1, 1]`: the average residual is at most `1e-10 √n`. -/
theorem C87_full {L : Gmres.Dense ℝ} (hL : L.Exact) {kMax : ℤ} (hk : (n : ℤ) ≤ kMax) (mt ar : Bool) {As : List (Mat n n ℝ)}
    {bs : List (Vec n ℝ)} (h0 : As ≠ []) (hl : As.length = bs.length) (hA : ∀ A ∈ As, IsUnit A.det)
    (hb : ∀ b ∈ bs, ∀ i, |b i| ≤ 1) :
    ∃ e, eval (gmresSolver L kMax mt ar) As bs = .ok e ∧ 0 ≤ e ∧ e ≤ 1 / 10 ^ 10 * Real.sqrt n := by
  refine eval_real h0 hl fun A hA' b hb' => ?_
  obtain ⟨r, hr, hx⟩ := gmresSolver_ok L (by omega : 0 ≤ kMax) mt ar A b 0
  refine ⟨r.x, hx, norm_nonneg _, ?_⟩
  have := Gmres.C48_solves L _ b 0 hL A (hA A hA') (by simp) hk hr
  rw [norm2_sub_comm]
  refine this.trans ?_
  have := norm2_le_sqrt (hb b hb')
  simp only [lit_real]
  push_cast
  gcongr

/-- **C87** Any number of iterations, at most 500 unknowns: the average residual is below 100, the threshold of the test with 20
iterations. -/
theorem C87_small {L : Gmres.Dense ℝ} (hL : L.Exact) {kMax : ℤ} (hk : 0 ≤ kMax) (hn : n ≤ 500) (mt ar : Bool) {As : List (Mat n n ℝ)}
    {bs : List (Vec n ℝ)} (h0 : As ≠ []) (hl : As.length = bs.length) (hA : ∀ A ∈ As, IsUnit A.det)
    (hb : ∀ b ∈ bs, ∀ i, |b i| ≤ 1) :
    ∃ e, eval (gmresSolver L kMax mt ar) As bs = .ok e ∧ e < 1e2 := by
  obtain ⟨e, he, -, h2⟩ := eval_real (solver := gmresSolver L kMax mt ar) (lo := 0) (hi := Real.sqrt n) h0 hl fun A hA' b hb' => by
    obtain ⟨r, hr, hx⟩ := gmresSolver_ok L hk mt ar A b 0
    refine ⟨r.x, hx, norm_nonneg _, ?_⟩
    have hB := Gmres.C49_partial L _ b 0 hL A (hA A hA') (by simp) hr
    have hm := (Gmres.C47_krylov L _ b 0 hL A hr hB).2 0 (by simp)
    rw [norm2_sub_comm]
    refine hm.trans ?_
    rw [mulVec_zero, sub_zero]
    exact norm2_le_sqrt (hb b hb')
  refine ⟨e, he, h2.trans_lt ?_⟩
  rw [Real.sqrt_lt' (by norm_num)]
  have : (n : ℝ) ≤ 500 := by exact_mod_cast hn
  norm_num
  linarith

/-- **C87** The direct solvers have residual zero. -/
theorem C87_direct {As : List (Mat n n ℝ)} {bs : List (Vec n ℝ)} (h0 : As ≠ []) (hl : As.length = bs.length)
    (hA : ∀ A ∈ As, IsUnit A.det) : eval fullPivLuSolver As bs = .ok 0 ∧ eval householderQrSolver As bs = .ok 0 := by
  have key : ∀ solver : LinearSolver n ℝ, (∀ A ∈ As, ∀ b ∈ bs, ∃ x, solver A b 0 = .ok x ∧ A *ᵥ x = b) → eval solver As bs = .ok 0 := by
    intro solver h
    obtain ⟨e, he, h1, h2⟩ := eval_real (solver := solver) (lo := 0) (hi := 0) h0 hl fun A hA' b hb' => by
      obtain ⟨x, hx, hs⟩ := h A hA' b hb'
      refine ⟨x, hx, ?_⟩
      rw [hs, sub_self]
      simp [Gmres.norm2]
    rw [he, le_antisymm h2 h1]
  exact ⟨key _ fun A hA' b _ => ⟨_, rfl, luSolve_exact A b (inj_of_det (hA A hA'))⟩,
    key _ fun A hA' b _ => ⟨_, rfl, C84_qr_solves A b (hA A hA')⟩⟩

/-! ## The threshold 1e-10 does not follow -/

/-- The identity of size ten with `1 - 2e-10` in the first place. -/
noncomputable def nearIdentity : Mat 10 10 ℝ := diagonal (Fin.cons (1 - 2 / 10 ^ 10) fun _ => 1)

theorem nearIdentity_det : IsUnit nearIdentity.det := by
  unfold nearIdentity
  rw [det_diagonal, Fin.prod_univ_succ]
  simp
  norm_num

theorem nearIdentity_entries (i j : Fin 10) : |nearIdentity i j| ≤ 1 := by
  unfold nearIdentity
  rw [diagonal_apply]
  split
  · refine Fin.cases ?_ (fun i => ?_) i
    · rw [Fin.cons_zero, abs_le]; constructor <;> norm_num
    · simp
  · simp

theorem ones_sq (a : ℝ) : (fun _ => 1 : Vec 10 ℝ) - nearIdentity *ᵥ (a • fun _ => (1 : ℝ)) =
    Fin.cons (1 - a * (1 - 2 / 10 ^ 10)) fun _ => 1 - a := by
  funext i
  unfold nearIdentity
  rw [Pi.sub_apply, mulVec_diagonal]
  refine Fin.cases ?_ (fun i => ?_) i
  · simp; ring
  · simp

theorem ones_resid (a : ℝ) : Gmres.norm2 ((fun _ => 1 : Vec 10 ℝ) - nearIdentity *ᵥ (a • fun _ => (1 : ℝ))) =
    Real.sqrt ((1 - a * (1 - 2 / 10 ^ 10)) ^ 2 + 9 * (1 - a) ^ 2) := by
  rw [ones_sq, ← Gmres.vnorm_norm2, Gmres.vnorm_real]
  congr 1
  rw [dot_succ]
  simp [dotProduct]
  ring

theorem norm_ones : Gmres.norm2 (fun _ => 1 : Vec 10 ℝ) = Real.sqrt 10 := by
  rw [← Gmres.vnorm_norm2, Gmres.vnorm_real]
  simp [dotProduct]

/-- GMRES stops after one round, with residual above `1e-10`. -/
theorem nearIdentity_run {L : Gmres.Dense ℝ} (hL : L.Exact) {kMax : ℤ} (hk : 1 ≤ kMax) (mt ar : Bool) {r : Gmres.Out 10 ℝ}
    (h : Gmres.solveMat L { makeTriangular := mt, applyReorth := ar, kMax := kMax, eps := lit (1 / 10 ^ 10) } nearIdentity (fun _ => 1) 0
      = .ok r) :
    r.k = 1 ∧ 1 / 10 ^ 10 < Gmres.norm2 ((fun _ => 1 : Vec 10 ℝ) - nearIdentity *ᵥ r.x) := by
  have h10 : 0 < Real.sqrt 10 := Real.sqrt_pos.2 (by norm_num)
  have heps : ∀ kMax : ℤ, (0 : ℝ) ≤ (Gmres.Config.eps (α := ℝ) { makeTriangular := mt, applyReorth := ar, kMax := kMax, eps := lit (1 / 10 ^ 10) }) :=
    fun _ => by simp
  -- at least one round
  have hpos : ∀ {kMax : ℤ} {r : Gmres.Out 10 ℝ}, 1 ≤ kMax →
      Gmres.solveMat L { makeTriangular := mt, applyReorth := ar, kMax := kMax, eps := lit (1 / 10 ^ 10) } nearIdentity (fun _ => 1) 0
      = .ok r → r.k ≠ 0 := by
    intro kMax r hk h h0
    obtain ⟨h1, -, -, -, h2, -, h3⟩ := Gmres.C46_shape L _ _ _ _ h
    rw [h0] at h1 h3
    rcases h3 with h3 | h3 | h3
    · dsimp only at h3; push_cast at h3; omega
    · simp at h3
    · have hlast : r.err.getLast? = some (vnorm ((fun _ => 1 : Vec 10 ℝ) - FOps.mulVec nearIdentity 0)) := by
        rw [List.getLast?_eq_getElem?, h1]
        exact h2
      have := h3 _ hlast
      rw [ltb_real_false, Gmres.vnorm_norm2, Gmres.vnorm_norm2, mulVec_real, mulVec_zero, sub_zero, norm_ones] at this
      simp only [lit_real] at this
      push_cast at this
      nlinarith
  -- best multiple of the right-hand side
  have hone : ∀ (w : Vec 10 ℝ), w ∈ Gmres.krylov nearIdentity ((fun _ => 1 : Vec 10 ℝ) - nearIdentity *ᵥ 0) 1 ↔
      ∃ a : ℝ, w = a • fun _ => (1 : ℝ) := by
    intro w
    unfold Gmres.krylov
    rw [Set.range_unique, Submodule.mem_span_singleton]
    simp only [Fin.default_eq_zero, Fin.val_zero, pow_zero, one_mulVec, mulVec_zero, sub_zero]
    exact ⟨fun ⟨a, ha⟩ => ⟨a, ha.symm⟩, fun ⟨a, ha⟩ => ⟨a, ha.symm⟩⟩
  have hfirst : ∀ {r' : Gmres.Out 10 ℝ},
      Gmres.solveMat L { makeTriangular := mt, applyReorth := ar, kMax := 1, eps := lit (1 / 10 ^ 10) } nearIdentity (fun _ => 1) 0
      = .ok r' → Gmres.norm2 ((fun _ => 1 : Vec 10 ℝ) - nearIdentity *ᵥ r'.x) ≤ 2 / 10 ^ 10 := by
    intro r' h'
    have hB := Gmres.C49_partial L _ _ 0 hL nearIdentity nearIdentity_det (heps 1) h'
    have hk1 : r'.k = 1 := by
      have := hpos le_rfl h'
      have := (Gmres.C46_shape L _ _ _ _ h').2.2.1
      dsimp only at this
      omega
    have := (Gmres.C47_krylov L _ _ 0 hL nearIdentity h' hB).2 ((1 : ℝ) • fun _ => (1 : ℝ)) (by
      rw [hk1, sub_zero, hone]
      exact ⟨1, rfl⟩)
    refine this.trans ?_
    rw [ones_resid]
    refine Real.sqrt_le_iff.2 ⟨by norm_num, by norm_num⟩
  have hB := Gmres.C49_partial L _ _ 0 hL nearIdentity nearIdentity_det (heps kMax) h
  have hk1 : r.k = 1 := by
    by_contra hne
    have h0 := hpos hk h
    obtain ⟨h1, -, -, -, -, h2, -⟩ := Gmres.C46_shape L _ _ _ _ h
    obtain ⟨r', hr', he⟩ := (Gmres.C45_residual L _ _ 0 hL nearIdentity h hB).1 1 (by omega)
    have hmem : Gmres.norm2 ((fun _ => 1 : Vec 10 ℝ) - nearIdentity *ᵥ r'.x) ∈ r.err.dropLast := by
      rw [List.mem_iff_getElem?]
      refine ⟨1, ?_⟩
      rw [List.getElem?_dropLast, if_pos (by omega)]
      exact he
    have := h2 _ hmem
    have h3 := hfirst hr'
    rw [ltb_real, Gmres.vnorm_norm2, norm_ones] at this
    simp only [lit_real] at this
    push_cast at this
    have h4 : (2 : ℝ) < Real.sqrt 10 := Real.lt_sqrt_of_sq_lt (by norm_num)
    nlinarith
  refine ⟨hk1, ?_⟩
  have hx := (Gmres.C47_krylov L _ _ 0 hL nearIdentity h hB).1
  rw [hk1, sub_zero, hone] at hx
  obtain ⟨a, ha⟩ := hx
  rw [ha, ones_resid]
  refine Real.lt_sqrt_of_sq_lt ?_
  nlinarith [sq_nonneg ((9 + (1 - 2 / 10 ^ 10) ^ 2) * (1 - a) + (1 - 2 / 10 ^ 10) * (2 / 10 ^ 10 : ℝ))]

/-- **C87** (finding) The expectation `EXPECT_LT(eval(...), 1e-10)` for GMRES does not follow from what the code guarantees: the tolerance
of `Gmres::solve` is relative to `‖b‖`.  For ten systems of size ten with entries in `[-1, 1]`, a nonsingular matrix and the right-hand
side of ones, the average residual is above `1e-10` in exact arithmetic, for each setting of the switches. -/
theorem C87_threshold {L : Gmres.Dense ℝ} (hL : L.Exact) (mt ar : Bool) :
    ∃ (As : List (Mat 10 10 ℝ)) (bs : List (Vec 10 ℝ)), As.length = 10 ∧ bs.length = 10 ∧ (∀ A ∈ As, IsUnit A.det) ∧
      (∀ A ∈ As, ∀ i j, |A i j| ≤ 1) ∧ (∀ b ∈ bs, ∀ i, |b i| ≤ 1) ∧
      ∃ e, eval (gmresSolver L 1000 mt ar) As bs = .ok e ∧ 1 / 10 ^ 10 < e := by
  refine ⟨List.replicate 10 nearIdentity, List.replicate 10 fun _ => 1, by simp, by simp, ?_, ?_, ?_, ?_⟩
  · intro A hA
    rw [List.eq_of_mem_replicate hA]
    exact nearIdentity_det
  · intro A hA
    rw [List.eq_of_mem_replicate hA]
    exact nearIdentity_entries
  · intro b hb
    rw [List.eq_of_mem_replicate hb]
    simp
  · obtain ⟨r, hr, hx⟩ := gmresSolver_ok L (by norm_num : (0 : ℤ) ≤ 1000) mt ar nearIdentity (fun _ => 1) 0
    have hgt := (nearIdentity_run hL (by norm_num) mt ar hr).2
    obtain ⟨e, he, h1, -⟩ := eval_real (solver := gmresSolver L 1000 mt ar) (As := List.replicate 10 nearIdentity)
      (bs := List.replicate 10 fun _ => 1) (lo := Gmres.norm2 ((fun _ => 1 : Vec 10 ℝ) - nearIdentity *ᵥ r.x))
      (hi := Gmres.norm2 ((fun _ => 1 : Vec 10 ℝ) - nearIdentity *ᵥ r.x)) (by simp) (by simp) (by
        intro A hA b hb
        rw [List.eq_of_mem_replicate hA, List.eq_of_mem_replicate hb]
        exact ⟨r.x, hx, (norm2_sub_comm _ _).le, (norm2_sub_comm _ _).le⟩)
    exact ⟨e, he, hgt.trans_le h1⟩

/-- The hypotheses of `C87_full` and `C87_small` hold for the witness. -/
example : ∃ e, eval (gmresSolver eigenDense 1000 true true) [nearIdentity] [fun _ => 1] = .ok e ∧ 0 ≤ e ∧
    e ≤ 1 / 10 ^ 10 * Real.sqrt (10 : ℕ) :=
  C87_full C84_dense (by norm_num) true true (by simp) (by simp) (by simpa using nearIdentity_det) (by simp)

end Nmpc.Library
