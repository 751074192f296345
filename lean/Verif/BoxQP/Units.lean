import Verif.BoxQP.Exact
import Mathlib.Tactic.FieldSimp
import Mathlib.Algebra.BigOperators.Field

/-!
# Units, order and orientation of the variables of a box-constrained program (for C137)
-/

namespace Nmpc.BoxQP

open Matrix

variable {n : ℕ} {L : LLT ℝ} {c c' : Config ℝ} {a : Args n ℝ} {o o' : Obj n ℝ}

/-! ## The search direction without positive definiteness of the whole Hessian -/

/-- Positive definite on the vectors that vanish outside the flagged indices. -/
def PosOn (H : Mat n n ℝ) (f : Fin n → Bool) : Prop := ∀ v : Vec n ℝ, (∀ i, f i = false → v i = 0) → v ≠ 0 → 0 < v ⬝ᵥ H *ᵥ v

theorem supp_dot {f : Fin n → Bool} {v : Vec n ℝ} (hv : ∀ i, f i = false → v i = 0) (w : Vec n ℝ) :
    v ⬝ᵥ w = subVec v (idxs f) ⬝ᵥ subVec w (idxs f) := by
  have h1 : v ⬝ᵥ w = ∑ i, if f i then v i * w i else 0 := by
    refine Finset.sum_congr rfl fun i _ => ?_
    cases hf : f i with
    | true => simp
    | false => simp [hv i hf]
  rw [h1, ← sum_idxs f fun i => v i * w i]
  rfl

theorem supp_mulVec {f : Fin n → Bool} {v : Vec n ℝ} (hv : ∀ i, f i = false → v i = 0) (H : Mat n n ℝ) :
    subVec (H *ᵥ v) (idxs f) = subMat H (idxs f) (idxs f) *ᵥ subVec v (idxs f) := by
  funext k
  show H ((idxs f).get k) ⬝ᵥ v = _
  rw [dotProduct_comm, supp_dot hv, dotProduct_comm]
  rfl

theorem supp_scatter {f : Fin n → Bool} (w : Vec (idxs f).length ℝ) (i : Fin n) (h : f i = false) : scatter (idxs f) w i = 0 :=
  scatter_not_mem _ _ (by simp [mem_idxs, h])

theorem subVec_scatter {f : Fin n → Bool} (w : Vec (idxs f).length ℝ) : subVec (scatter (idxs f) w) (idxs f) = w :=
  funext fun k => scatter_get _ (idxs_nodup f) w k

theorem supp_ext {f : Fin n → Bool} {v w : Vec n ℝ} (hv : ∀ i, f i = false → v i = 0) (hw : ∀ i, f i = false → w i = 0)
    (h : subVec v (idxs f) = subVec w (idxs f)) : v = w := by
  funext i
  cases hf : f i with
  | false => rw [hv i hf, hw i hf]
  | true =>
    obtain ⟨k, hk⟩ := List.get_of_mem (mem_idxs.2 hf)
    have := congrFun h k
    simp only [subVec, hk] at this
    exact this

theorem posOn_iff {H : Mat n n ℝ} (hH : H.IsSymm) (f : Fin n → Bool) : (subMat H (idxs f) (idxs f)).PosDef ↔ PosOn H f := by
  rw [posDef_iff]
  constructor
  · rintro ⟨-, h⟩ v hv hne
    rw [supp_dot hv, supp_mulVec hv]
    refine h _ fun h0 => hne (supp_ext hv (fun _ _ => rfl) ?_)
    rw [h0]; rfl
  · intro h
    refine ⟨subMat_symm hH _, fun w hw => ?_⟩
    have h1 := h (scatter (idxs f) w) (fun i => supp_scatter w i) fun h0 => hw (by rw [← subVec_scatter w, h0]; rfl)
    rwa [supp_dot (fun i => supp_scatter w i), supp_mulVec (fun i => supp_scatter w i), subVec_scatter] at h1

/-- What determines the search direction: it vanishes on the clamped indices and cancels the gradient on the free ones. -/
structure IsDir (a : Args n ℝ) (x : Vec n ℝ) (fl : Fin n → Bool) (dir : Vec n ℝ) : Prop where
  clamped : ∀ i, fl i = true → dir i = 0
  free : ∀ i, fl i = false → gradient a x i + (a.H *ᵥ dir) i = 0

theorem IsDir.unique {x : Vec n ℝ} {fl : Fin n → Bool} {v w : Vec n ℝ} (hp : PosOn a.H fun i => !fl i)
    (hv : IsDir a x fl v) (hw : IsDir a x fl w) : v = w := by
  by_contra hne
  have h1 := hp (v - w) (fun i hi => by
    have hi' : fl i = true := by simpa using hi
    simp [hv.clamped i hi', hw.clamped i hi']) (sub_ne_zero.2 hne)
  have h2 : (v - w) ⬝ᵥ a.H *ᵥ (v - w) = 0 := by
    refine Finset.sum_eq_zero fun i _ => ?_
    cases hf : fl i with
    | true => simp [hv.clamped i hf, hw.clamped i hf]
    | false =>
      have h3 := hv.free i hf
      have h4 := hw.free i hf
      rw [mulVec_sub, Pi.sub_apply, Pi.sub_apply]
      have : (a.H *ᵥ v) i - (a.H *ᵥ w) i = 0 := by linarith
      rw [this, mul_zero]
  linarith

theorem IsDir.slope {x : Vec n ℝ} {fl : Fin n → Bool} {v : Vec n ℝ} (hp : PosOn a.H fun i => !fl i) (hv : IsDir a x fl v) :
    v ⬝ᵥ gradient a x ≤ 0 := by
  have h1 : v ⬝ᵥ gradient a x = -(v ⬝ᵥ a.H *ᵥ v) := by
    rw [← dotProduct_neg]
    refine Finset.sum_congr rfl fun i _ => ?_
    cases hf : fl i with
    | true => simp [hv.clamped i hf]
    | false =>
      have := hv.free i hf
      have : gradient a x i = (-(a.H *ᵥ v)) i := by rw [Pi.neg_apply]; linarith
      rw [this]
  rw [h1]
  by_cases h0 : v = 0
  · simp [h0]
  · have := hp v (fun i hi => hv.clamped i (by simpa using hi)) h0
    linarith

/-- The direction computed with a factorisation of the free part. -/
theorem isDir_scatter (hL : L.Exact) {x : Vec n ℝ} {fl : Fin n → Bool} (hH : a.H.IsSymm) (hp : PosOn a.H fun i => !fl i)
    {d : Vec (idxs fun i => !fl i).length ℝ}
    (hd : searchDirFree L a x (some ⟨_, subMat a.H (idxs fun i => !fl i) (idxs fun i => !fl i)⟩) (idxs fun i => !fl i) (idxs fl) = some d) :
    IsDir a x fl (scatter (idxs fun i => !fl i) d) := by
  unfold searchDirFree at hd
  dsimp only at hd
  rw [dif_pos rfl] at hd
  have hd' := Option.some.inj hd
  have hPD := (posOn_iff hH fun i => !fl i).2 hp
  have h1 := hL.solve_eq _ (subVec a.g (idxs fun i => !fl i) +
    FOps.mulVec (subMat a.H (idxs fun i => !fl i) (idxs fl)) (subVec x (idxs fl))) hPD
  have h2 := gradient_free a x fl
  have h3 : subMat a.H (idxs fun i => !fl i) (idxs fun i => !fl i) *ᵥ d = -subVec (gradient a x) (idxs fun i => !fl i) := by
    rw [← hd', h2, smulv_real, Matrix.mulVec_sub, Matrix.mulVec_smul, h1]
    simp only [neg_smul, one_smul, mulVec_real]
    abel
  refine ⟨fun i hi => supp_scatter d i (by simp [hi]), fun i hi => ?_⟩
  have hs := supp_mulVec (fun i => supp_scatter d i) a.H
  rw [subVec_scatter, h3] at hs
  obtain ⟨k, hk⟩ := List.get_of_mem ((mem_idxs (f := fun i => !fl i) (i := i)).2 (by simp [hi]))
  have := congrFun hs k
  simp only [subVec, Pi.neg_apply, hk] at this
  linarith

/-! ## The change of units -/

/-- New variable `i` is the old variable `e i` in units of `d i` (a negative `d i` reverses its orientation); the objective is counted in units of
`1 / c`. -/
structure Units (n : ℕ) where
  e : Equiv.Perm (Fin n)
  d : Fin n → ℝ
  c : ℝ
  hd : ∀ i, d i ≠ 0
  hc : 0 < c

variable (T : Units n)

/-- Points and directions. -/
noncomputable def Units.pt (v : Vec n ℝ) : Vec n ℝ := fun i => v (T.e i) / T.d i

/-- Gradients. -/
noncomputable def Units.gr (v : Vec n ℝ) : Vec n ℝ := fun i => T.c * T.d i * v (T.e i)

/-- The program in the new units. -/
noncomputable def Units.args (a : Args n ℝ) : Args n ℝ where
  H i j := T.c * T.d i * T.d j * a.H (T.e i) (T.e j)
  g := T.gr a.g
  lower i := if 0 < T.d i then a.lower (T.e i) / T.d i else a.upper (T.e i) / T.d i
  upper i := if 0 < T.d i then a.upper (T.e i) / T.d i else a.lower (T.e i) / T.d i
  init := T.pt a.init

/-- Trace entries. -/
noncomputable def Units.trace (t : Trace n ℝ) : Trace n ℝ where
  iter := t.iter
  x := T.pt t.x
  obj := T.c * t.obj
  searchDir := T.pt t.searchDir
  clamped i := t.clamped (T.e i)
  factNum := t.factNum
  stepNum := t.stepNum

/-- Index lists, in increasing order. -/
def Units.list (l : List (Fin n)) : List (Fin n) := idxs fun i => decide (T.e i ∈ l)

/-- The threshold for the gradient, in the new units. -/
structure Units.Conf (c c' : Config ℝ) : Prop where
  maxIter : c'.maxIter = c.maxIter
  rel : c'.relImproveThre = c.relImproveThre
  factor : c'.stepFactor = c.stepFactor
  minStep : c'.minStep = c.minStep
  armijo : c'.armijo = c.armijo
  grad : (c.gradThre = 0 ∧ c'.gradThre = 0) ∨ ∃ δ, 0 < δ ∧ (∀ i, |T.d i| = δ) ∧ c'.gradThre = T.c * δ * c.gradThre

variable {T}

theorem Units.dot (v w : Vec n ℝ) : T.pt v ⬝ᵥ T.gr w = T.c * (v ⬝ᵥ w) := by
  unfold dotProduct Units.pt Units.gr
  rw [Finset.mul_sum, ← Equiv.sum_comp T.e fun i => T.c * (v i * w i)]
  refine Finset.sum_congr rfl fun i _ => ?_
  have := T.hd i
  field_simp

theorem Units.mulVec (v : Vec n ℝ) : (T.args a).H *ᵥ T.pt v = T.gr (a.H *ᵥ v) := by
  funext i
  unfold Matrix.mulVec dotProduct Units.pt Units.gr Units.args
  dsimp only
  rw [Finset.mul_sum, ← Equiv.sum_comp T.e fun j => T.c * T.d i * (a.H (T.e i) j * v j)]
  refine Finset.sum_congr rfl fun j _ => ?_
  have := T.hd j
  field_simp

theorem Units.gr_add (v w : Vec n ℝ) : T.gr v + T.gr w = T.gr (v + w) := by
  funext i; simp only [Units.gr, Pi.add_apply]; ring

theorem Units.pt_add_smul (s : ℝ) (v w : Vec n ℝ) : T.pt v + smulv s (T.pt w) = T.pt (v + smulv s w) := by
  funext i; simp only [Units.pt, Pi.add_apply, smulv]; ring

theorem Units.objective (x : Vec n ℝ) : objective (T.args a).H (T.args a).g (T.pt x) = T.c * objective a.H a.g x := by
  unfold BoxQP.objective
  simp only [dot_real, mulVec_real]
  rw [T.mulVec, T.dot, show (T.args a).g = T.gr a.g from rfl, T.dot]
  ring

theorem Units.gradient (x : Vec n ℝ) : gradient (T.args a) (T.pt x) = T.gr (gradient a x) := by
  unfold BoxQP.gradient
  simp only [mulVec_real]
  rw [T.mulVec, show (T.args a).g = T.gr a.g from rfl, T.gr_add]

theorem Units.clamp (h : ∀ i, a.lower i ≤ a.upper i) (x : Vec n ℝ) :
    clampBox (T.args a).lower (T.args a).upper (T.pt x) = T.pt (clampBox a.lower a.upper x) := by
  funext i
  have hi := h (T.e i)
  unfold clampBox Units.pt Units.args
  dsimp only
  rw [fmax_real, fmin_real, fmax_real, fmin_real]
  rcases lt_or_gt_of_ne (T.hd i) with hd | hd
  · rw [if_neg hd.not_gt, if_neg hd.not_gt]
    have h1 : ∀ a b : ℝ, min (a / T.d i) (b / T.d i) = max a b / T.d i := fun a b => by
      rcases le_total a b with h | h
      · rw [max_eq_right h, min_eq_right (div_le_div_of_nonpos_of_le hd.le h)]
      · rw [max_eq_left h, min_eq_left (div_le_div_of_nonpos_of_le hd.le h)]
    have h2 : ∀ a b : ℝ, max (a / T.d i) (b / T.d i) = min a b / T.d i := fun a b => by
      rcases le_total a b with h | h
      · rw [min_eq_left h, max_eq_left (div_le_div_of_nonpos_of_le hd.le h)]
      · rw [min_eq_right h, max_eq_right (div_le_div_of_nonpos_of_le hd.le h)]
    rw [h1, h2]
    congr 1
    rw [max_min_distrib_right, max_eq_left hi, min_comm]
  · rw [if_pos hd, if_pos hd, min_div_div_right hd.le, max_div_div_right hd.le]

theorem Units.candidate (h : ∀ i, a.lower i ≤ a.upper i) (x dir : Vec n ℝ) (s : ℝ) :
    candidate (T.args a) (T.pt x) (T.pt dir) s = T.pt (candidate a x dir s) := by
  unfold BoxQP.candidate
  rw [T.pt_add_smul, T.clamp h]

theorem Units.flags (x g : Vec n ℝ) (i : Fin n) : clampedFlags (T.args a) (T.pt x) (T.gr g) i = clampedFlags a x g (T.e i) := by
  have hc := T.hc
  have hd := T.hd i
  have hdiv : ∀ u v : ℝ, u / T.d i = v / T.d i ↔ u = v := fun u v => div_left_inj' hd
  unfold clampedFlags Units.pt Units.gr Units.args
  dsimp only
  rcases lt_or_gt_of_ne hd with hd | hd
  · have hcd : T.c * T.d i < 0 := mul_neg_of_pos_of_neg hc hd
    have hp : ∀ y : ℝ, 0 < T.c * T.d i * y ↔ y < 0 := fun y => by constructor <;> intro h <;> nlinarith
    have hn : ∀ y : ℝ, T.c * T.d i * y < 0 ↔ 0 < y := fun y => by constructor <;> intro h <;> nlinarith
    rw [if_neg hd.not_gt, if_neg hd.not_gt, Bool.eq_iff_iff]
    simp only [Bool.or_eq_true, Bool.and_eq_true, eqb_real, ltb_real, hdiv, hp, hn]
    tauto
  · have hcd : 0 < T.c * T.d i := mul_pos hc hd
    have hp : ∀ y : ℝ, 0 < T.c * T.d i * y ↔ 0 < y := fun y => by constructor <;> intro h <;> nlinarith
    have hn : ∀ y : ℝ, T.c * T.d i * y < 0 ↔ y < 0 := fun y => by constructor <;> intro h <;> nlinarith
    rw [if_pos hd, if_pos hd, Bool.eq_iff_iff]
    simp only [Bool.or_eq_true, Bool.and_eq_true, eqb_real, ltb_real, hdiv, hp, hn]

theorem Units.list_idxs (f : Fin n → Bool) : T.list (idxs f) = idxs fun i => f (T.e i) := by
  unfold Units.list
  congr 1
  funext i
  simp [mem_idxs]

theorem Units.posOn {f : Fin n → Bool} : PosOn (T.args a).H (fun i => f (T.e i)) ↔ PosOn a.H f := by
  have hsurj : ∀ v : Vec n ℝ, T.pt (fun i => T.d (T.e.symm i) * v (T.e.symm i)) = v := fun v => by
    funext i
    have := T.hd i
    simp only [Units.pt, Equiv.symm_apply_apply]
    field_simp
  have hq : ∀ v, T.pt v ⬝ᵥ (T.args a).H *ᵥ T.pt v = T.c * (v ⬝ᵥ a.H *ᵥ v) := fun v => by rw [T.mulVec, T.dot]
  constructor
  · intro h v hv hne
    have h1 := h (T.pt v) (fun i hi => by simp [Units.pt, hv _ hi]) fun h0 => hne (by
      funext i
      have := congrFun h0 (T.e.symm i)
      simpa [Units.pt, T.hd] using this)
    rw [hq] at h1
    exact (mul_pos_iff_of_pos_left T.hc).1 h1
  · intro h v hv hne
    rw [← hsurj v, hq]
    refine mul_pos T.hc (h _ (fun i hi => ?_) fun h0 => hne ?_)
    · have := hv (T.e.symm i) (by simpa using hi)
      rw [this, mul_zero]
    · funext i
      have := congrFun h0 (T.e i)
      simpa [T.hd] using this

theorem Units.symm (h : a.H.IsSymm) : (T.args a).H.IsSymm := by
  ext i j
  have := congrFun (congrFun h (T.e i)) (T.e j)
  simp only [transpose_apply] at this
  rw [transpose_apply]
  show T.c * T.d j * T.d i * a.H (T.e j) (T.e i) = T.c * T.d i * T.d j * a.H (T.e i) (T.e j)
  rw [this]
  ring

theorem Units.isDir {x : Vec n ℝ} {fl : Fin n → Bool} {v : Vec n ℝ} (h : IsDir a x fl v) :
    IsDir (T.args a) (T.pt x) (fun i => fl (T.e i)) (T.pt v) where
  clamped i hi := by simp [Units.pt, h.clamped _ hi]
  free i hi := by
    rw [T.gradient, T.mulVec]
    have := h.free _ hi
    simp only [Units.gr]
    rw [← mul_add, this, mul_zero]

theorem Units.gradNorm {g : Vec n ℝ} {f : Fin n → Bool} (hcf : T.Conf c c') :
    ltb (freeGradNorm (T.gr g) (idxs fun i => f (T.e i))) (c'.gradThre * c'.gradThre) =
      ltb (freeGradNorm g (idxs f)) (c.gradThre * c.gradThre) := by
  rw [freeGradNorm_eq, freeGradNorm_eq]
  have hnn : ∀ (g : Vec n ℝ) (f : Fin n → Bool), 0 ≤ ∑ i, if f i then g i * g i else 0 := fun g f =>
    Finset.sum_nonneg fun i _ => by split <;> [exact mul_self_nonneg _; exact le_rfl]
  rw [Bool.eq_iff_iff, ltb_real, ltb_real]
  rcases hcf.grad with ⟨h1, h2⟩ | ⟨δ, hδ, h1, h2⟩
  · rw [h1, h2, mul_zero]
    have h3 := hnn g f
    have h4 := hnn (T.gr g) fun i => f (T.e i)
    constructor <;> intro h <;> linarith
  · have h3 : (∑ i, if f (T.e i) then T.gr g i * T.gr g i else 0) = (T.c * δ) ^ 2 * ∑ i, if f i then g i * g i else 0 := by
      rw [Finset.mul_sum, ← Equiv.sum_comp T.e fun i => (T.c * δ) ^ 2 * if f i then g i * g i else 0]
      refine Finset.sum_congr rfl fun i _ => ?_
      split
      · have : T.d i ^ 2 = δ ^ 2 := by rw [← sq_abs, h1 i]
        simp only [Units.gr]
        rw [mul_pow, ← this]
        ring
      · rw [mul_zero]
    have hp : 0 < (T.c * δ) ^ 2 := pow_pos (mul_pos T.hc hδ) 2
    rw [h3, h2, show T.c * δ * c.gradThre * (T.c * δ * c.gradThre) = (T.c * δ) ^ 2 * (c.gradThre * c.gradThre) by ring]
    exact mul_lt_mul_iff_right₀ hp

end Nmpc.BoxQP
