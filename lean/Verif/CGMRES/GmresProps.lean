import Verif.CGMRES.Exact
import Mathlib.Analysis.InnerProductSpace.PiL2

/-!
# Properties of GMRES (C45 - C49)
-/

set_option linter.unusedSectionVars false

namespace Nmpc.Gmres

open Matrix

/-- Euclidean norm. -/
noncomputable def norm2 {n : ℕ} (v : Vec n ℝ) : ℝ := ‖WithLp.toLp 2 v‖

theorem vnorm_norm2 {n : ℕ} (v : Vec n ℝ) : vnorm v = norm2 v := by
  rw [norm2, EuclideanSpace.norm_eq, vnorm_real]
  congr 1
  unfold dotProduct
  exact Finset.sum_congr rfl fun i _ => by rw [Real.norm_eq_abs, sq_abs, sq]

/-- No division by zero in the dense solve at the end: the triangular matrix has nonzero diagonal entries (the pivots
`nu` of the rotations), respectively the least-squares matrix has full column rank. -/
def NoBreakdown {n : ℕ} (cfg : Config ℝ) (r : Out n ℝ) : Prop :=
  if cfg.makeTriangular then ∀ j < r.k, r.H j j ≠ 0
  else ∀ y : Vec r.k ℝ, block r.H (r.k + 1) r.k *ᵥ y = 0 → y = 0

/-- Krylov space `span {r, M r, …, M^(k-1) r}`. -/
def krylov {n : ℕ} (M : Mat n n ℝ) (r : Vec n ℝ) (k : ℕ) : Submodule ℝ (Vec n ℝ) :=
  Submodule.span ℝ (Set.range fun i : Fin k => M ^ (i : ℕ) *ᵥ r)

/-! ## Any arithmetic -/

section Generic
variable {α : Type} [Add α] [Sub α] [Mul α] [Div α] [Neg α] [Zero α] [One α] [FOps α] {n : ℕ}

/-- C46 (any arithmetic, any operator): the lists have `k + 1 ≤ min(k_max, n) + 1` entries; the loop went on exactly
as long as the error exceeded the tolerance and the limit was not reached. -/
theorem C46_shape (L : Dense α) (cfg : Config α) (A : Vec n α → Vec n α) (b x : Vec n α) {r : Out n α}
    (h : solve L cfg A b x = .ok r) :
    r.err.length = r.k + 1 ∧ r.basis.length = r.k + 1 ∧ (r.k : ℤ) ≤ cfg.kMax ∧ r.k ≤ n ∧
    r.err[0]? = some (vnorm (b - A x)) ∧
    (∀ e ∈ r.err.dropLast, ltb (cfg.eps * vnorm b) e = true) ∧
    ((r.k : ℤ) = cfg.kMax ∨ r.k = n ∨ ∀ e, r.err.getLast? = some e → ltb (cfg.eps * vnorm b) e = false) := by
  obtain ⟨h0, hs, hr⟩ := solve_ok L cfg A b x h
  have hle := hs.le
  have he : r.err = (List.range (r.k + 1)).map fun i => (S L cfg A b x i).rho := by
    rw [← S_err]; nth_rewrite 1 [hr]; rfl
  refine ⟨by rw [he]; simp, ?_, by omega, by omega, ?_, ?_, ?_⟩
  · nth_rewrite 1 [hr]; simp [finish]
  · rw [he]; simp [init]
  · intro e hm
    rw [he, List.range_succ, List.map_append, List.map_singleton, List.dropLast_concat] at hm
    obtain ⟨i, hi, rfl⟩ := List.mem_map.mp hm
    exact hs.cont i (by simpa using hi)
  · rcases hs.stop with h1 | h1
    · rcases le_total cfg.kMax n with h2 | h2
      · left; omega
      · right; left; omega
    · right; right
      intro e hl
      rw [he, List.range_succ, List.map_append, List.map_singleton, List.getLast?_concat] at hl
      cases hl; exact h1

/-- A negative `k_max` is undefined behaviour; otherwise `solve` returns. -/
theorem C46_total (L : Dense α) (cfg : Config α) (A : Vec n α → Vec n α) (b x : Vec n α) :
    (cfg.kMax < 0 → solve L cfg A b x = .ub) ∧ (0 ≤ cfg.kMax → ∃ r, solve L cfg A b x = .ok r) := by
  unfold solve
  refine ⟨fun h => if_pos h, fun h => ⟨_, if_neg (by omega)⟩⟩

/-- The iterates do not depend on the limits: with the limit `j` one gets the state after `j` rounds. -/
theorem solve_prefix (L : Dense α) (cfg : Config α) (A : Vec n α → Vec n α) (b x : Vec n α) {r : Out n α}
    (h : solve L cfg A b x = .ok r) {j : ℕ} (hj : j ≤ r.k) :
    solve L { cfg with kMax := j } A b x = .ok (finish L cfg x (S L cfg A b x j)) := by
  obtain ⟨h0, hs, _⟩ := solve_ok L cfg A b x h
  have hle := hs.le
  have e : ∀ i, S L { cfg with kMax := j } A b x i = S L cfg A b x i := fun i => S_congr L A b x rfl rfl i
  have := solve_of_stops L { cfg with kMax := j } A b x (by simp) (k := j)
    ⟨by simp; omega, fun i hi => by rw [e]; exact hs.cont i (by omega), Or.inl (by simp; omega)⟩
  rw [this, e]; rfl

end Generic

/-! ## Exact arithmetic -/

section Real
variable {n : ℕ} (L : Dense ℝ) (cfg : Config ℝ) (A : Vec n ℝ → Vec n ℝ) (b x : Vec n ℝ)

theorem fine_of_noBreakdown {r : Out n ℝ} (h : solve L cfg A b x = .ok r) (hb : NoBreakdown cfg r) :
    Fine L cfg A b x r.k := by
  obtain ⟨_, _, hr⟩ := solve_ok L cfg A b x h
  have hH : r.H = (S L cfg A b x r.k).H := by nth_rewrite 1 [hr]; rfl
  unfold NoBreakdown at hb
  rw [hH] at hb
  unfold Fine
  by_cases ht : cfg.makeTriangular = true
  · rw [if_pos ht] at hb ⊢
    intro j hj
    rw [← H_diag L cfg A b x ht, ← S_H_stable L cfg A b x hj]; exact hb j hj
  · rw [if_neg ht] at hb ⊢
    have e : hblock L cfg A b x r.k = block (S L cfg A b x r.k).H (r.k + 1) r.k := by
      funext i j; simp only [hblock, block]; rw [S_lsq_H L cfg A b x (by simpa using ht) j.2]
    rw [e]; exact hb

theorem noBreakdown_of_fine {r : Out n ℝ} (h : solve L cfg A b x = .ok r) (hb : Fine L cfg A b x r.k) :
    NoBreakdown cfg r := by
  obtain ⟨_, _, hr⟩ := solve_ok L cfg A b x h
  have hH : r.H = (S L cfg A b x r.k).H := by nth_rewrite 1 [hr]; rfl
  unfold NoBreakdown
  rw [hH]
  unfold Fine at hb
  by_cases ht : cfg.makeTriangular = true
  · rw [if_pos ht] at hb ⊢
    intro j hj
    rw [S_H_stable L cfg A b x hj, H_diag L cfg A b x ht]; exact hb j hj
  · rw [if_neg ht] at hb ⊢
    have e : hblock L cfg A b x r.k = block (S L cfg A b x r.k).H (r.k + 1) r.k := by
      funext i j; simp only [hblock, block]; rw [S_lsq_H L cfg A b x (by simpa using ht) j.2]
    rw [e] at hb; exact hb

theorem finish_x (k : ℕ) : (finish L cfg x (S L cfg A b x k)).x =
    x + ∑ j ∈ Finset.range k, coef L cfg (S L cfg A b x k) j • V L cfg A b x j :=
  update_real L cfg A b x k _

/-- Error after `k` rounds. -/
theorem rho_eq (M : Mat n n ℝ) (hL : L.Exact) {k : ℕ}
    (hf : cfg.makeTriangular = true → Fine L cfg (M *ᵥ ·) b x k) :
    (S L cfg (M *ᵥ ·) b x k).rho = norm2 (b - M *ᵥ (finish L cfg x (S L cfg (M *ᵥ ·) b x k)).x) := by
  have h := rho_sq L cfg (M *ᵥ ·) b x hL hf
  rw [← resid_sq, ← finish_x] at h
  rw [← vnorm_norm2]
  exact (sq_eq_sq₀ (S_rho_nonneg L cfg _ b x k) (vnorm_nonneg _)).mp h

/-- C45: entry `j` of the error list is the true residual norm of the point that `solve` returns when it is limited to
`j` iterations, and the last entry is the residual norm of the returned point. -/
theorem C45_residual (hL : L.Exact) (M : Mat n n ℝ) {r : Out n ℝ} (h : solveMat L cfg M b x = .ok r)
    (hb : NoBreakdown cfg r) :
    (∀ j ≤ r.k, ∃ r', solveMat L { cfg with kMax := j } M b x = .ok r' ∧
      r.err[j]? = some (norm2 (b - M *ᵥ r'.x))) ∧
    r.err.getLast? = some (norm2 (b - M *ᵥ r.x)) := by
  change solve L cfg (M *ᵥ ·) b x = .ok r at h
  obtain ⟨h0, hs, hr⟩ := solve_ok L cfg (M *ᵥ ·) b x h
  have hf := fine_of_noBreakdown L cfg (M *ᵥ ·) b x h hb
  have he : r.err = (List.range (r.k + 1)).map fun i => (S L cfg (M *ᵥ ·) b x i).rho := by
    rw [← S_err]; nth_rewrite 1 [hr]; rfl
  have hx : r.x = (finish L cfg x (S L cfg (M *ᵥ ·) b x r.k)).x := by nth_rewrite 1 [hr]; rfl
  refine ⟨fun j hj => ⟨_, solve_prefix L cfg (M *ᵥ ·) b x h hj, ?_⟩, ?_⟩
  · rw [he, List.getElem?_map, List.getElem?_range (by omega), Option.map_some,
      rho_eq L cfg b x M hL fun _ => hf.mono L cfg _ b x hj]
  · rw [he, List.range_succ, List.map_append, List.map_singleton, List.getLast?_concat,
      rho_eq L cfg b x M hL fun _ => hf, ← hx]

/-- C45 in the least-squares mode: no assumption on breakdown and none on the QR solver is needed, the recorded error
always is the residual norm of the returned point. -/
theorem C45_lsq (M : Mat n n ℝ) (ht : cfg.makeTriangular = false) {r : Out n ℝ}
    (h : solveMat L cfg M b x = .ok r) : r.err.getLast? = some (norm2 (b - M *ᵥ r.x)) := by
  change solve L cfg (M *ᵥ ·) b x = .ok r at h
  obtain ⟨h0, hs, hr⟩ := solve_ok L cfg (M *ᵥ ·) b x h
  have he : r.err = (List.range (r.k + 1)).map fun i => (S L cfg (M *ᵥ ·) b x i).rho := by
    rw [← S_err]; nth_rewrite 1 [hr]; rfl
  have hx : r.x = (finish L cfg x (S L cfg (M *ᵥ ·) b x r.k)).x := by nth_rewrite 1 [hr]; rfl
  rw [he, List.range_succ, List.map_append, List.map_singleton, List.getLast?_concat]
  have h1 := S_lsq_rho L cfg (M *ᵥ ·) b x ht r.k
  rw [← coef_lsq L cfg _ b x ht, ← resid_sq, ← finish_x, ← hx] at h1
  rw [← vnorm_norm2, (sq_eq_sq₀ (S_rho_nonneg L cfg _ b x _) (vnorm_nonneg _)).mp h1]

/-- C46 (exact arithmetic, any operator): the errors do not increase. -/
theorem C46_monotone (hL : L.Exact) {r : Out n ℝ} (h : solve L cfg A b x = .ok r) (hb : NoBreakdown cfg r) :
    r.err.Pairwise (· ≥ ·) := by
  obtain ⟨h0, hs, hr⟩ := solve_ok L cfg A b x h
  have hf := fine_of_noBreakdown L cfg A b x h hb
  have he : r.err = (List.range (r.k + 1)).map fun i => (S L cfg A b x i).rho := by
    rw [← S_err]; nth_rewrite 1 [hr]; rfl
  have hmono : ∀ j i, i ≤ j → j ≤ r.k → (S L cfg A b x j).rho ≤ (S L cfg A b x i).rho := by
    intro j
    induction j with
    | zero => intro i hi _; obtain rfl : i = 0 := by omega
              exact le_rfl
    | succ j ih =>
      intro i hi hj
      rcases Nat.le_succ_iff.mp hi with h' | h'
      · exact (rho_anti L cfg A b x hL (hf.mono L cfg A b x hj)).trans (ih i h' (by omega))
      · rw [h']
  rw [he, List.pairwise_map]
  refine (List.pairwise_lt_range (n := r.k + 1)).imp_of_mem ?_
  intro i j _ hj hij
  exact hmono j i hij.le (by simp at hj; omega)

theorem basis_mem {r : Out n ℝ} (h : solve L cfg A b x = .ok r) :
    {v | v ∈ r.basis.take r.k} = Set.range fun j : Fin r.k => V L cfg A b x j := by
  obtain ⟨h0, hs, hr⟩ := solve_ok L cfg A b x h
  have hB : r.basis = (List.range (r.k + 1)).map (S L cfg A b x r.k).basis := by
    nth_rewrite 1 [hr]; simp [finish]
  rw [hB, ← List.map_take, List.take_range]
  ext v
  simp only [Set.mem_ofPred_eq, List.mem_map, List.mem_range, Set.mem_range]
  constructor
  · rintro ⟨i, hi, rfl⟩
    exact ⟨⟨i, by omega⟩, (S_basis L cfg A b x (by omega)).symm⟩
  · rintro ⟨i, rfl⟩
    exact ⟨i, by omega, S_basis L cfg A b x (by omega)⟩

theorem mem_span_V {k : ℕ} {w : Vec n ℝ} :
    w ∈ Submodule.span ℝ (Set.range fun j : Fin k => V L cfg A b x j) ↔
      ∃ y : ℕ → ℝ, w = ∑ j ∈ Finset.range k, y j • V L cfg A b x j := by
  rw [Submodule.mem_span_range_iff_exists_fun]
  constructor
  · rintro ⟨c, rfl⟩
    refine ⟨ofVec c, ?_⟩
    rw [Finset.sum_range]
    exact Finset.sum_congr rfl fun j _ => by simp [ofVec]
  · rintro ⟨y, rfl⟩
    exact ⟨fun j => y j, (Finset.sum_range fun j => y j • V L cfg A b x j).symm⟩

/-- C46 (any operator): `x` changes only within the span of the basis (without the last basis vector). -/
theorem C46_span {r : Out n ℝ} (h : solve L cfg A b x = .ok r) :
    r.x - x ∈ Submodule.span ℝ {v | v ∈ r.basis.take r.k} := by
  obtain ⟨h0, hs, hr⟩ := solve_ok L cfg A b x h
  have hx : r.x = (finish L cfg x (S L cfg A b x r.k)).x := by nth_rewrite 1 [hr]; rfl
  rw [basis_mem L cfg A b x h, mem_span_V, hx, finish_x]
  exact ⟨_, by rw [add_sub_cancel_left]⟩

/-- C46 (any operator): the basis is orthogonal and consists of unit vectors or zero vectors. -/
theorem C46_orthonormal {r : Out n ℝ} (h : solve L cfg A b x = .ok r) :
    r.basis.Pairwise (fun v w => v ⬝ᵥ w = 0) ∧ ∀ v ∈ r.basis, norm2 v = 1 ∨ v = 0 := by
  obtain ⟨h0, hs, hr⟩ := solve_ok L cfg A b x h
  have hB : r.basis = (List.range (r.k + 1)).map (V L cfg A b x) := by
    nth_rewrite 1 [hr]; simp only [finish, S_k]
    exact List.map_congr_left fun i hi => S_basis L cfg A b x (by simp at hi; omega)
  rw [hB]
  constructor
  · rw [List.pairwise_map]
    exact (List.pairwise_lt_range (n := r.k + 1)).imp fun hij => V_dot L cfg A b x hij.ne
  · intro v hv
    obtain ⟨i, _, rfl⟩ := List.mem_map.mp hv
    rcases V_unit L cfg A b x i with h1 | h1
    · left; rw [← vnorm_norm2, vnorm_real, h1, Real.sqrt_one]
    · right; exact h1

/-- C47: the returned point minimises the residual norm over `x + span(basis used)`. -/
theorem C47_minimal (hL : L.Exact) (M : Mat n n ℝ) {r : Out n ℝ} (h : solveMat L cfg M b x = .ok r)
    (hb : NoBreakdown cfg r) {z : Vec n ℝ} (hz : z - x ∈ Submodule.span ℝ {v | v ∈ r.basis.take r.k}) :
    norm2 (b - M *ᵥ r.x) ≤ norm2 (b - M *ᵥ z) := by
  change solve L cfg (M *ᵥ ·) b x = .ok r at h
  obtain ⟨h0, hs, hr⟩ := solve_ok L cfg (M *ᵥ ·) b x h
  have hf := fine_of_noBreakdown L cfg (M *ᵥ ·) b x h hb
  have hx : r.x = (finish L cfg x (S L cfg (M *ᵥ ·) b x r.k)).x := by nth_rewrite 1 [hr]; rfl
  rw [basis_mem L cfg _ b x h, mem_span_V] at hz
  obtain ⟨y, hy⟩ := hz
  have hz' : z = x + ∑ j ∈ Finset.range r.k, y j • V L cfg (M *ᵥ ·) b x j := by rw [← hy]; abel
  rw [hx, ← rho_eq L cfg b x M hL fun _ => hf, ← vnorm_norm2]
  refine abs_le_of_sq_le_sq' ?_ (vnorm_nonneg _) |>.2
  rw [hz', resid_sq]
  exact rho_min L cfg (M *ᵥ ·) b x hL hf y

theorem krylov_mono (M : Mat n n ℝ) (r : Vec n ℝ) {k m : ℕ} (h : k ≤ m) : krylov M r k ≤ krylov M r m := by
  refine Submodule.span_mono ?_
  rintro _ ⟨i, rfl⟩
  exact ⟨⟨i, by omega⟩, rfl⟩

theorem krylov_mul (M : Mat n n ℝ) (r : Vec n ℝ) {k : ℕ} {v : Vec n ℝ} (hv : v ∈ krylov M r k) :
    M *ᵥ v ∈ krylov M r (k + 1) := by
  have : (krylov M r k).map M.mulVecLin ≤ krylov M r (k + 1) := by
    unfold krylov
    rw [Submodule.map_span, Submodule.span_le]
    rintro _ ⟨_, ⟨i, rfl⟩, rfl⟩
    refine Submodule.subset_span ⟨⟨i + 1, by omega⟩, ?_⟩
    simp only [mulVecLin_apply, mulVec_mulVec, pow_succ']
  exact this ⟨v, hv, rfl⟩

/-- The basis spans the Krylov space. -/
theorem span_V_krylov (M : Mat n n ℝ) (k : ℕ) :
    Submodule.span ℝ (Set.range fun j : Fin k => V L cfg (M *ᵥ ·) b x j) = krylov M (b - M *ᵥ x) k := by
  apply le_antisymm
  · have hV : ∀ j, V L cfg (M *ᵥ ·) b x j ∈ krylov M (b - M *ᵥ x) (j + 1) := by
      have hnorm : ∀ {w : Vec n ℝ} {W : Submodule ℝ (Vec n ℝ)}, w ∈ W → normalized w ∈ W := by
        intro w W hw
        by_cases h : w = 0
        · rw [normalized_zero h]; exact W.zero_mem
        · rw [normalized_ne h]; exact W.smul_mem _ hw
      intro j
      induction j using Nat.strong_induction_on with
      | _ j ih =>
        cases j with
        | zero =>
          rw [V_zero]
          exact hnorm (Submodule.subset_span ⟨⟨0, by omega⟩, by simp⟩)
        | succ j =>
          rw [V_succ]
          refine hnorm ?_
          have hrel := arnoldi_rel L cfg (M *ᵥ ·) b x j
          rw [Finset.sum_range_succ, hes_sub, V_succ, vnorm_smul_normalized] at hrel
          have : wdir L cfg (M *ᵥ ·) b x j = M *ᵥ V L cfg (M *ᵥ ·) b x j -
              ∑ i ∈ Finset.range (j + 1), hes L cfg (M *ᵥ ·) b x i j • V L cfg (M *ᵥ ·) b x i := by
            rw [hrel]; abel
          rw [this]
          refine Submodule.sub_mem _ (krylov_mul M _ (ih j (by omega))) (Submodule.sum_mem _ fun i hi => ?_)
          exact Submodule.smul_mem _ _ (krylov_mono M _ (by simp at hi; omega) (ih i (by simp at hi; omega)))
    rw [Submodule.span_le]
    rintro _ ⟨j, rfl⟩
    exact krylov_mono M _ (by omega) (hV j)
  · have hP : ∀ i m, i < m → M ^ i *ᵥ (b - M *ᵥ x) ∈
        Submodule.span ℝ (Set.range fun j : Fin m => V L cfg (M *ᵥ ·) b x j) := by
      intro i
      induction i with
      | zero =>
        intro m hm
        rw [pow_zero, one_mulVec, ← res_V0 L cfg (M *ᵥ ·) b x]
        exact Submodule.smul_mem _ _ (Submodule.subset_span ⟨⟨0, hm⟩, rfl⟩)
      | succ i ih =>
        intro m hm
        rw [pow_succ', ← mulVec_mulVec]
        have hmap : (Submodule.span ℝ (Set.range fun j : Fin (i + 1) => V L cfg (M *ᵥ ·) b x j)).map M.mulVecLin ≤
            Submodule.span ℝ (Set.range fun j : Fin m => V L cfg (M *ᵥ ·) b x j) := by
          rw [Submodule.map_span, Submodule.span_le]
          rintro _ ⟨_, ⟨j, rfl⟩, rfl⟩
          simp only [mulVecLin_apply, SetLike.mem_coe]
          rw [show M *ᵥ V L cfg (M *ᵥ ·) b x j = _ from arnoldi_rel L cfg (M *ᵥ ·) b x j]
          refine Submodule.sum_mem _ fun l hl => Submodule.smul_mem _ _ (Submodule.subset_span ?_)
          exact ⟨⟨l, by simp at hl; omega⟩, rfl⟩
        exact hmap ⟨_, ih (i + 1) (by omega), rfl⟩
    unfold krylov
    rw [Submodule.span_le]
    rintro _ ⟨i, rfl⟩
    exact hP i k i.2

/-- C47: the space searched after `k` iterations is the Krylov space of the initial residual, and the returned point
minimises the residual norm over it. -/
theorem C47_krylov (hL : L.Exact) (M : Mat n n ℝ) {r : Out n ℝ} (h : solveMat L cfg M b x = .ok r)
    (hb : NoBreakdown cfg r) :
    r.x - x ∈ krylov M (b - M *ᵥ x) r.k ∧
    ∀ z, z - x ∈ krylov M (b - M *ᵥ x) r.k → norm2 (b - M *ᵥ r.x) ≤ norm2 (b - M *ᵥ z) := by
  have h' : solve L cfg (M *ᵥ ·) b x = .ok r := h
  have e : krylov M (b - M *ᵥ x) r.k = Submodule.span ℝ {v | v ∈ r.basis.take r.k} := by
    rw [basis_mem L cfg _ b x h', span_V_krylov]
  rw [e]
  exact ⟨C46_span L cfg _ b x h', fun z hz => C47_minimal L cfg b x hL M h hb hz⟩

/-- C49 for invertible matrices and a tolerance that is not negative: no division by zero (C49 itself is false, see
`C49_fails`). -/
theorem C49_partial (hL : L.Exact) (M : Mat n n ℝ) (hM : IsUnit M.det) (he : 0 ≤ cfg.eps) {r : Out n ℝ}
    (h : solveMat L cfg M b x = .ok r) : NoBreakdown cfg r := by
  have h' : solve L cfg (M *ᵥ ·) b x = .ok r := h
  obtain ⟨h0, hs, hr⟩ := solve_ok L cfg (M *ᵥ ·) b x h'
  have hinj : ∀ v, M *ᵥ v = 0 → v = 0 := by
    intro v hv
    have := congrArg (M⁻¹ *ᵥ ·) hv
    simpa [mulVec_mulVec, Matrix.nonsing_inv_mul _ hM] using this
  refine noBreakdown_of_fine L cfg _ b x h' (invertible_fine L cfg b x M hL hinj r.k fun j hj => ?_).2
  have := hs.cont j hj
  simp only [ltb_real] at this
  have h2 := mul_nonneg he (vnorm_nonneg b)
  exact (lt_of_le_of_lt h2 this).ne'

/-- C48: for an invertible matrix, `k_max ≥ n` and a tolerance that is not negative the returned point satisfies the
tolerance. -/
theorem C48_solves (hL : L.Exact) (M : Mat n n ℝ) (hM : IsUnit M.det) (he : 0 ≤ cfg.eps) (hk : (n : ℤ) ≤ cfg.kMax)
    {r : Out n ℝ} (h : solveMat L cfg M b x = .ok r) : norm2 (b - M *ᵥ r.x) ≤ cfg.eps * norm2 b := by
  have hb := C49_partial L cfg b x hL M hM he h
  have h' : solve L cfg (M *ᵥ ·) b x = .ok r := h
  obtain ⟨h0, hs, hr⟩ := solve_ok L cfg (M *ᵥ ·) b x h'
  have hf := fine_of_noBreakdown L cfg (M *ᵥ ·) b x h' hb
  have hx : r.x = (finish L cfg x (S L cfg (M *ᵥ ·) b x r.k)).x := by nth_rewrite 1 [hr]; rfl
  have hinj : ∀ v, M *ᵥ v = 0 → v = 0 := by
    intro v hv
    have := congrArg (M⁻¹ *ᵥ ·) hv
    simpa [mulVec_mulVec, Matrix.nonsing_inv_mul _ hM] using this
  have h2 := mul_nonneg he (vnorm_nonneg b)
  rw [hx, ← rho_eq L cfg b x M hL fun _ => hf, ← vnorm_norm2]
  rcases hs.stop with h1 | h1
  · have hkn : r.k = n := by omega
    by_contra hcon
    have hpos : ∀ j < r.k + 1, (S L cfg (M *ᵥ ·) b x j).rho ≠ 0 := by
      intro j hj
      rcases Nat.lt_succ_iff_lt_or_eq.mp hj with h3 | h3
      · have := hs.cont j h3
        simp only [ltb_real] at this
        exact (lt_of_le_of_lt h2 this).ne'
      · rw [h3]; exact (lt_of_le_of_lt h2 (not_le.mp hcon)).ne'
    have := V_dim L cfg (M *ᵥ ·) b x (invertible_fine L cfg b x M hL hinj (r.k + 1) hpos).1
    omega
  · simpa using h1

/-- C48, consequence: with tolerance 0 the linear equation is solved exactly. -/
theorem C48_exact (hL : L.Exact) (M : Mat n n ℝ) (hM : IsUnit M.det) (he : cfg.eps = 0) (hk : (n : ℤ) ≤ cfg.kMax)
    {r : Out n ℝ} (h : solveMat L cfg M b x = .ok r) : M *ᵥ r.x = b := by
  have := C48_solves L cfg b x hL M hM he.ge hk h
  rw [he, zero_mul, ← vnorm_norm2] at this
  have h0 := vnorm_eq_zero.mp (le_antisymm this (vnorm_nonneg _))
  exact (sub_eq_zero.mp h0).symm

end Real
end Nmpc.Gmres
