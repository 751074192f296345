import Verif.BoxQP.Separable

/-!
# C123: BoxQP with the right active set, and bounds on its number of iterations
-/

namespace Nmpc.BoxQP

open Matrix

variable {n : ℕ} {L : LLT ℝ} {c : Config ℝ} {a : Args n ℝ} {o : Obj n ℝ} {r : Result n ℝ}

/-- Coordinate `i` of `x` is clamped: at a limit, with the objective decreasing beyond it. -/
def ClampedAt (a : Args n ℝ) (x : Vec n ℝ) (i : Fin n) : Prop :=
  (x i = a.lower i ∧ 0 < (a.g + a.H *ᵥ x) i) ∨ (x i = a.upper i ∧ (a.g + a.H *ᵥ x) i < 0)

theorem flagsAt_iff (s : State n ℝ) (i : Fin n) : flagsAt a s i = true ↔ ClampedAt a s.x i := by
  simp only [flagsAt, clampedFlags, Bool.or_eq_true, Bool.and_eq_true, eqb_real, ltb_real, ClampedAt, gradient_real]

/-- First-order conditions are sufficient. -/
theorem box_minimiser (hH : a.H.PosDef) {xs : Vec n ℝ}
    (hopt : ∀ i, ∀ y, InBox a.lower a.upper y → 0 ≤ (a.g + a.H *ᵥ xs) i * (y i - xs i)) :
    ∀ y, InBox a.lower a.upper y → qp a.H a.g xs ≤ qp a.H a.g y := by
  intro y hy
  have hp := posDef_iff.1 hH
  rw [qp_expand' hp.1 a.g xs y]
  have h1 : 0 ≤ (a.g + a.H *ᵥ xs) ⬝ᵥ (y - xs) := Finset.sum_nonneg fun i _ => hopt i y hy
  have h2 := (posSemidef_iff.1 hH.posSemidef).2 (y - xs)
  linarith

open scoped Classical in
/-- **C123**, finite termination with the right active set: let `x0` be the initial guess clipped to the box, and let `xs` agree
with `x0` in the coordinates clamped at `x0`, have zero gradient in all others, lie in the box and have a gradient of the right
sign (or zero) in the clamped ones.  Then `xs` is the minimiser over the box, and `solve` stops within two iterations: at `xs`, or
at `x0` if the gradient of the free coordinates is below the threshold there. -/
theorem C123_active_set (hL : L.Exact) (hH : a.H.PosDef) (hlu : ∀ i, a.lower i ≤ a.upper i) (harm : c.armijo ≤ 1 / 2)
    (hthre : c.gradThre ≠ 0) {x0 xs : Vec n ℝ} (hx0 : ∀ i, x0 i = max (min (a.init i) (a.upper i)) (a.lower i))
    (hcl : ∀ i, ClampedAt a x0 i → xs i = x0 i ∧ 0 ≤ (a.g + a.H *ᵥ xs) i * (a.g + a.H *ᵥ x0) i)
    (hfr : ∀ i, ¬ ClampedAt a x0 i → (a.g + a.H *ᵥ xs) i = 0) (hbox : InBox a.lower a.upper xs) :
    (∀ y, InBox a.lower a.upper y → qp a.H a.g xs ≤ qp a.H a.g y) ∧
    ∃ r, solve L c o a = .ok r ∧ r.iter ≤ 2 ∧ r.obj.retval ∈ ([1, 4, 5, 6] : List ℤ) ∧
      (r.x = xs ∨ (r.x = x0 ∧ r.obj.retval = 5)) ∧
      (c.gradThre * c.gradThre ≤ ∑ i, (if ClampedAt a x0 i then 0 else (a.g + a.H *ᵥ x0) i ^ 2) → r.x = xs) := by
  have hpd := posDef_iff.1 hH
  have hb0 : InBox a.lower a.upper x0 := fun i => by
    rw [hx0]; exact ⟨le_max_right _ _, max_le (min_le_right _ _) (hlu i)⟩
  -- the gradient at `xs` of a clamped coordinate vanishes or keeps the coordinate clamped
  have hkeep : ∀ i, ¬ ClampedAt a xs i → (a.g + a.H *ᵥ xs) i = 0 := by
    intro i hi
    by_cases hc : ClampedAt a x0 i
    · obtain ⟨h1, h2⟩ := hcl i hc
      by_contra hne
      rcases hc with ⟨h3, h4⟩ | ⟨h3, h4⟩
      · exact hi (Or.inl ⟨h1.trans h3, lt_of_le_of_ne (nonneg_of_mul_nonneg_left h2 h4) (Ne.symm hne)⟩)
      · refine hi (Or.inr ⟨h1.trans h3, lt_of_le_of_ne ?_ hne⟩)
        by_contra h5
        exact absurd h2 (not_le.2 (mul_neg_of_pos_of_neg (not_le.1 h5) h4))
    · exact hfr i hc
  have hmin : ∀ y, InBox a.lower a.upper y → qp a.H a.g xs ≤ qp a.H a.g y := by
    refine box_minimiser hH fun i y hy => ?_
    by_cases hc : ClampedAt a xs i
    · rcases hc with ⟨h3, h4⟩ | ⟨h3, h4⟩
      · rw [h3]; exact mul_nonneg h4.le (sub_nonneg.2 (hy i).1)
      · rw [h3]; exact mul_nonneg_of_nonpos_of_nonpos h4.le (sub_nonpos.2 (hy i).2)
    · rw [hkeep i hc, zero_mul]
  refine ⟨hmin, ?_⟩
  have hnofail : ∀ s : State n ℝ, L.ok (subMat a.H (freeAt a s) (freeAt a s)) ≠ false := by
    intro s hok
    have hPD : (subMat a.H (freeAt a s) (freeAt a s)).PosDef := subMat_posDef hH _
    rw [← hL.ok_iff _ (posDef_iff.1 hPD).1] at hPD
    rw [hPD] at hok; cases hok
  have hfgn : ∀ s : State n ℝ, freeGradNorm (gradient a s.x) (freeAt a s) =
      ∑ i, if flagsAt a s i = true then 0 else (a.g + a.H *ᵥ s.x) i * (a.g + a.H *ᵥ s.x) i := by
    intro s
    rw [freeAt, freeGradNorm_eq]
    refine Finset.sum_congr rfl fun i _ => ?_
    rw [gradient_real]
    cases flagsAt a s i <;> simp
  have hzero : ∀ s1 : State n ℝ, s1.x = xs → freeGradNorm (gradient a s1.x) (freeAt a s1) = 0 := by
    intro s1 hx1
    rw [hfgn]
    refine Finset.sum_eq_zero fun i _ => ?_
    split
    · rfl
    · rename_i hf
      rw [flagsAt_iff, hx1] at hf
      rw [hx1, hkeep i hf, mul_zero]
  -- an iterate equal to `xs` ends the run
  have second : ∀ s1 : State n ℝ, s1.x = xs → Inv8 L a s1 →
      ∃ s2, mainStep L c a s1 = .inr (.ok s2) ∧ s2.x = xs ∧ s2.iter = s1.iter ∧
        s2.retval ∈ ([1, 4, 5, 6] : List ℤ) := by
    intro s1 hx1 hinv1
    have hlt : ltb (freeGradNorm (gradient a s1.x) (freeAt a s1)) (c.gradThre * c.gradThre) = true := by
      rw [hzero s1 hx1, ltb_real]; exact mul_self_pos.2 hthre
    have hout := mainStep_out L c a s1
    generalize mainStep L c a s1 = z at hout
    cases hout with
    | rel _ h => exact ⟨_, rfl, hx1, rfl, by simp⟩
    | all h => exact ⟨_, rfl, hx1, rfl, by simp⟩
    | fail _ _ hok => exact absurd hok (hnofail _)
    | grad => exact ⟨_, rfl, hx1, rfl, by simp⟩
    | ub _ hok hd => rw [searchDirFree_coherent hinv1 hok] at hd; cases hd
    | ascent _ _ hg => rw [hlt] at hg; cases hg
    | diverge _ hg => rw [hlt] at hg; cases hg
    | maxIter _ _ hg => rw [hlt] at hg; cases hg
    | next _ _ hg => rw [hlt] at hg; cases hg
  obtain ⟨s0, hs0⟩ : ∃ s0, s0 = initState a o := ⟨_, rfl⟩
  have hx : s0.x = x0 := by
    rw [hs0]; funext i
    rw [hx0]; simp only [initState, clampBox, fmax_real, fmin_real]
  have hi0 : s0.iter = 1 := by rw [hs0]; rfl
  have ho0 : s0.obj = qp a.H a.g x0 := by
    rw [← hx, hs0]; exact objective_eq _ _ _
  have hinv0 : Inv8 L a s0 := by rw [hs0]; exact inv8_init
  by_cases heq : xs = x0
  · obtain ⟨s2, h2, h3, h4, h5⟩ := second s0 (hx.trans heq.symm) hinv0
    exact ⟨s2.result, by rw [solve, loopR, ← hs0, loopM_inr h2]; rfl,
      by show s2.iter ≤ 2; omega, h5, Or.inl h3, fun _ => h3⟩
  -- the search direction leads to `xs`
  have hdir : dirAt L a s0 = xs - x0 := by
    have hz : ∀ i, (dirAt L a s0 - (xs - x0)) i * (a.H *ᵥ (dirAt L a s0 - (xs - x0))) i = 0 := by
      intro i
      cases hf : flagsAt a s0 i with
      | true =>
        have h1 : dirAt L a s0 i = 0 := scatter_not_mem _ _ (by rw [freeAt, mem_idxs, hf]; simp)
        rw [flagsAt_iff, hx] at hf
        rw [Pi.sub_apply, Pi.sub_apply, h1, (hcl i hf).1]; simp
      | false =>
        have h1 := mulVec_dirAt_free hL hH hf
        have hf' : ¬ (flagsAt a s0 i = true) := by rw [hf]; simp
        rw [flagsAt_iff, hx] at hf'
        have h2 := hfr i hf'
        rw [gradient_real, hx] at h1
        rw [Matrix.mulVec_sub, Matrix.mulVec_sub]
        simp only [Pi.add_apply, Pi.sub_apply] at h1 h2 ⊢
        rw [h1]
        have : -(a.g i + (a.H *ᵥ x0) i) - ((a.H *ᵥ xs) i - (a.H *ᵥ x0) i) = 0 := by linarith
        rw [this, mul_zero]
    by_contra hne
    have := hpd.2 _ (sub_ne_zero.2 hne)
    rw [dotProduct, Finset.sum_eq_zero fun i _ => hz i] at this
    exact lt_irrefl _ this
  have hcand : candidate a s0.x (dirAt L a s0) 1 = xs := by
    rw [candidate, smulv_real, one_smul, hx, hdir, add_sub_cancel]
    exact clampBox_of_inBox hbox
  have hsum : freeGradNorm (gradient a s0.x) (freeAt a s0) =
      ∑ i, (if ClampedAt a x0 i then 0 else (a.g + a.H *ᵥ x0) i ^ 2) := by
    rw [hfgn, hx]
    refine Finset.sum_congr rfl fun i _ => ?_
    have := flagsAt_iff (a := a) s0 i
    rw [hx] at this
    by_cases hc : ClampedAt a x0 i
    · rw [if_pos (this.2 hc), if_pos hc]
    · rw [if_neg (fun h => hc (this.1 h)), if_neg hc, sq]
  have hval : qp a.H a.g xs - s0.obj = 1 / 2 * (dirAt L a s0 ⬝ᵥ gradient a s0.x) := by
    have h1 : (xs - x0) ⬝ᵥ (a.H *ᵥ (xs - x0)) = - ((xs - x0) ⬝ᵥ (a.g + a.H *ᵥ x0)) := by
      rw [dotProduct, dotProduct, ← Finset.sum_neg_distrib]
      refine Finset.sum_congr rfl fun i _ => ?_
      by_cases hc : ClampedAt a x0 i
      · rw [Pi.sub_apply, (hcl i hc).1]; simp
      · have h2 := hfr i hc
        rw [Matrix.mulVec_sub]
        simp only [Pi.add_apply, Pi.sub_apply] at h2 ⊢
        have : (a.H *ᵥ xs) i - (a.H *ᵥ x0) i = -(a.g i + (a.H *ᵥ x0) i) := by linarith
        rw [this]; ring
    rw [ho0, qp_expand' hpd.1 a.g x0 xs, hdir, gradient_real, hx, h1, dotProduct_comm (a.g + a.H *ᵥ x0)]
    ring
  have hls : (dirAt L a s0 ⬝ᵥ gradient a s0.x < 0) →
      lineSearch c a s0.x (dirAt L a s0) s0.obj (dirAt L a s0 ⬝ᵥ gradient a s0.x) s0.retval =
      some (lsInit a s0.x (dirAt L a s0) s0.retval) := by
    intro hsl
    refine loopM_inr ?_
    rw [lsStep, if_neg]
    simp only [lsInit, ltb_real, hcand, objective_eq, hval, one_mul, not_lt]
    rw [mul_div_assoc, div_self hsl.ne, mul_one]
    exact harm
  have hslope : ltb (freeGradNorm (gradient a s0.x) (freeAt a s0)) (c.gradThre * c.gradThre) = false →
      dirAt L a s0 ⬝ᵥ gradient a s0.x < 0 := by
    intro hg
    refine (dir_slope hL hH s0).2 (lt_of_lt_of_le (mul_self_pos.2 hthre) ?_)
    rw [← Bool.not_eq_true, ltb_real] at hg
    exact not_lt.1 hg
  have hout := mainStep_out L c a s0
  generalize hz : mainStep L c a s0 = z at hout
  cases hout with
  | rel h1 => omega
  | all h =>
    refine absurd (funext fun i => ?_) heq
    have := h i
    rw [flagsAt_iff, hx] at this
    exact (hcl i this).1
  | fail _ _ hok => exact absurd hok (hnofail _)
  | grad _ _ hlt =>
    refine ⟨_, by rw [solve, loopR, ← hs0, loopM_inr hz]; rfl, ?_, by simp [State.result], Or.inr ⟨hx, rfl⟩, fun hge => ?_⟩
    · show s0.iter ≤ 2; omega
    · rw [ltb_real, hsum] at hlt
      exact absurd hge (not_le.2 hlt)
  | ub _ hok hd => rw [searchDirFree_coherent hinv0 hok] at hd; cases hd
  | ascent _ hok hg d hd hlt =>
    rw [step_searchDir hinv0 hok hd] at hlt
    simp only [dot_real, ltb_real, lit_real] at hlt
    norm_num at hlt
    linarith [hslope hg]
  | diverge d hg hok hd hl =>
    rw [step_searchDir hinv0 hok hd, dot_real, hls (hslope hg)] at hl
    cases hl
  | maxIter _ hok hg d hd _ ls hl hmi =>
    rw [step_searchDir hinv0 hok hd, dot_real, hls (hslope hg)] at hl
    cases hl
    refine ⟨_, by rw [solve, loopR, ← hs0, loopM_inr hz]; rfl, ?_, by simp [State.result], Or.inl hcand, fun _ => hcand⟩
    show s0.iter ≤ 2; omega
  | next _ hok hg d hd _ ls hl =>
    have h8 := inv8_step hinv0 hz
    rw [step_searchDir hinv0 hok hd, dot_real, hls (hslope hg)] at hl
    cases hl
    obtain ⟨s2, h2, h3, h4, h5⟩ := second _ (show _ = xs from hcand) h8
    refine ⟨s2.result, by rw [solve, loopR, ← hs0, loopM_inl hz, loopM_inr h2]; rfl, ?_, h5, Or.inl h3, fun _ => h3⟩
    have h4' : s2.iter = s0.iter + 1 := h4
    show s2.iter ≤ 2; omega

/-! ## Near a strictly complementary minimiser -/

/-- **C123**, local finite termination: let `xs` be a point of the box that is strictly complementary with margin `ε`: every
coordinate is either at a limit, with a gradient of the right sign that exceeds `ε` times the absolute row sum of `H`, or more than
`ε` away from both limits, with zero gradient.  Then `xs` is the minimiser over the box, and from every starting point in the box that
agrees with `xs` in the coordinates at a limit and differs by at most `ε` in the others `solve` stops within two iterations: at `xs`,
or, with code 5, where it started. -/
theorem C123_local (hL : L.Exact) (hH : a.H.PosDef) (harm : c.armijo ≤ 1 / 2) (hthre : c.gradThre ≠ 0) {xs : Vec n ℝ} {ε : ℝ}
    (hbox : InBox a.lower a.upper xs)
    (hsc : ∀ i, (xs i = a.lower i ∧ ε * (∑ j, |a.H i j|) < (a.g + a.H *ᵥ xs) i) ∨
      (xs i = a.upper i ∧ ε * (∑ j, |a.H i j|) < - (a.g + a.H *ᵥ xs) i) ∨
      (a.lower i + ε < xs i ∧ xs i + ε < a.upper i ∧ (a.g + a.H *ᵥ xs) i = 0))
    (hinit : InBox a.lower a.upper a.init) (hclose : ∀ i, |a.init i - xs i| ≤ ε)
    (hact : ∀ i, xs i = a.lower i ∨ xs i = a.upper i → a.init i = xs i) :
    (∀ y, InBox a.lower a.upper y → qp a.H a.g xs ≤ qp a.H a.g y) ∧
    ∃ r, solve L c o a = .ok r ∧ r.iter ≤ 2 ∧ r.obj.retval ∈ ([1, 4, 5, 6] : List ℤ) ∧
      (r.x = xs ∨ (r.x = a.init ∧ r.obj.retval = 5)) := by
  have hgd : ∀ i, |(a.g + a.H *ᵥ a.init) i - (a.g + a.H *ᵥ xs) i| ≤ ε * ∑ j, |a.H i j| := by
    intro i
    have h1 : (a.g + a.H *ᵥ a.init) i - (a.g + a.H *ᵥ xs) i = ∑ j, a.H i j * (a.init j - xs j) := by
      simp only [Pi.add_apply, mulVec, dotProduct, mul_sub, Finset.sum_sub_distrib]
      ring
    rw [h1, Finset.mul_sum]
    refine (Finset.abs_sum_le_sum_abs _ _).trans (Finset.sum_le_sum fun j _ => ?_)
    rw [abs_mul, mul_comm ε]
    exact mul_le_mul_of_nonneg_left (hclose j) (abs_nonneg _)
  have hcases : ∀ i, (ClampedAt a a.init i → xs i = a.init i ∧ 0 ≤ (a.g + a.H *ᵥ xs) i * (a.g + a.H *ᵥ a.init) i) ∧
      (¬ ClampedAt a a.init i → (a.g + a.H *ᵥ xs) i = 0) := by
    intro i
    have h0 : 0 ≤ ε * ∑ j, |a.H i j| := (abs_nonneg _).trans (hgd i)
    obtain ⟨hg1, hg2⟩ := abs_le.1 (hgd i)
    rcases hsc i with ⟨h1, h2⟩ | ⟨h1, h2⟩ | ⟨h1, h2, h3⟩
    · have h4 := hact i (Or.inl h1)
      have h5 : 0 < (a.g + a.H *ᵥ a.init) i := by linarith
      refine ⟨fun _ => ⟨h4.symm, mul_nonneg (by linarith) h5.le⟩, fun h => absurd (Or.inl ⟨h4.trans h1, h5⟩) h⟩
    · have h4 := hact i (Or.inr h1)
      have h5 : (a.g + a.H *ᵥ a.init) i < 0 := by linarith
      exact ⟨fun _ => ⟨h4.symm, mul_nonneg_of_nonpos_of_nonpos (by linarith) h5.le⟩, fun h => absurd (Or.inr ⟨h4.trans h1, h5⟩) h⟩
    · obtain ⟨h4, h5⟩ := abs_le.1 (hclose i)
      refine ⟨fun h => ?_, fun _ => h3⟩
      rcases h with ⟨h6, -⟩ | ⟨h6, -⟩ <;> linarith
  obtain ⟨h1, r, h2, h3, h4, h5, -⟩ := C123_active_set (o := o) hL hH (fun i => (hinit i).1.trans (hinit i).2) harm hthre
    (x0 := a.init) (xs := xs)
    (fun i => by rw [min_eq_left (hinit i).2, max_eq_left (hinit i).1]) (fun i => (hcases i).1) (fun i => (hcases i).2) hbox
  exact ⟨h1, r, h2, h3, h4, h5⟩

/-! ## Number of iterations -/

/-- The decrease of the objective by one accepted step that was not cut off by `min_step`. -/
theorem step_decrease_amount (hL : L.Exact) (hH : a.H.PosDef) (hg : c.gradThre ≠ 0)
    (hf : 0 < c.stepFactor) (ha : 0 ≤ c.armijo) {s : State n ℝ} (hs : Inv8 L a s)
    (hok : refactorAt a s = true → L.ok (subMat a.H (freeAt a s) (freeAt a s)) = true)
    (hgr : ltb (freeGradNorm (gradient a s.x) (freeAt a s)) (c.gradThre * c.gradThre) = false)
    {d : Vec (freeAt a s).length ℝ}
    (hd : searchDirFree L a s.x (lltAt a s) (freeAt a s) (idxs (flagsAt a s)) = some d)
    {ls : LS n ℝ}
    (hl : lineSearch c a s.x (scatter (freeAt a s) d) s.obj
        (FOps.dot (scatter (freeAt a s) d) (gradient a s.x)) s.retval = some ls)
    (hcut : c.minStep ≤ c.stepFactor ^ ls.stepNum) :
    c.armijo * c.minStep * (c.gradThre * c.gradThre) ≤ a.H.trace * (s.obj - ls.objc) := by
  rw [step_searchDir hs hok hd] at hl
  obtain ⟨h1, h2⟩ := lineSearch_spec hl
  simp only [ltb_real_false] at hgr
  have hpos : 0 < freeGradNorm (gradient a s.x) (freeAt a s) :=
    lt_of_lt_of_le (mul_self_pos.2 hg) hgr
  have hsl := (dir_slope hL hH s).2 hpos
  rw [h1] at h2
  have hst : 0 < c.stepFactor ^ ls.stepNum := pow_pos hf _
  have hT : 0 ≤ a.H.trace := hH.posSemidef.trace_nonneg
  have hzero : ∀ i, flagsAt a s i = true → dirAt L a s i = 0 := fun i hi =>
    scatter_not_mem _ _ (by rw [freeAt, mem_idxs]; simp [hi])
  have hslope : dirAt L a s ⬝ᵥ gradient a s.x = - (dirAt L a s ⬝ᵥ (a.H *ᵥ dirAt L a s)) := by
    rw [dotProduct, dotProduct, ← Finset.sum_neg_distrib]
    refine Finset.sum_congr rfl fun i _ => ?_
    cases hf : flagsAt a s i with
    | true => rw [hzero i hf]; ring
    | false => rw [mulVec_dirAt_free hL hH hf]; ring
  have hG : freeGradNorm (gradient a s.x) (freeAt a s) ≤ a.H.trace * -(dirAt L a s ⬝ᵥ gradient a s.x) := by
    rw [hslope, neg_neg]
    refine le_trans ?_ (mulVec_sq_le hH.posSemidef _)
    rw [freeAt, freeGradNorm_eq]
    refine Finset.sum_le_sum fun i _ => ?_
    cases hf : flagsAt a s i with
    | true => simpa [hf] using mul_self_nonneg ((a.H *ᵥ dirAt L a s) i)
    | false => rw [mulVec_dirAt_free hL hH hf]; simp
  rcases h2 with h2 | h2
  · rw [dot_real] at h2
    have hden : c.stepFactor ^ ls.stepNum * (dirAt L a s ⬝ᵥ gradient a s.x) < 0 :=
      mul_neg_of_pos_of_neg hst hsl
    rw [le_div_iff_of_neg hden] at h2
    have h3 := mul_le_mul_of_nonneg_left h2 hT
    have h4 := mul_le_mul_of_nonneg_left (hgr.trans hG) (mul_nonneg ha hst.le)
    have h5 := mul_le_mul_of_nonneg_right (mul_le_mul_of_nonneg_left hcut ha) (mul_self_nonneg c.gradThre)
    calc _ ≤ _ := h5
      _ ≤ _ := h4
      _ = -(a.H.trace * (c.armijo * (c.stepFactor ^ ls.stepNum * (dirAt L a s ⬝ᵥ gradient a s.x)))) := by ring
      _ ≤ _ := by linarith
  · linarith

/-- **C123**, number of iterations: if no line search of the run was cut off by `min_step`, the number `K` of accepted steps of a run
with a positive definite `H` satisfies `K * armijo_param * min_step * grad_thre² ≤ trace(H) * (f(x0) - f(x))`, where `x0` is the
initial guess clipped to the box and `x` the result; the bound does not involve `max_iter`. -/
theorem C123_iterations (hL : L.Exact) (hH : a.H.PosDef) (hg : c.gradThre ≠ 0) (hf : 0 < c.stepFactor) (ha : 0 ≤ c.armijo)
    (h : solve L c o a = .ok r) (hcut : ∀ e ∈ r.obj.trace, c.minStep ≤ c.stepFactor ^ e.stepNum) :
    ((if r.obj.retval = 1 then r.iter else r.iter - 1 : ℕ) : ℝ) * (c.armijo * c.minStep * (c.gradThre * c.gradThre)) ≤
      a.H.trace * (qp a.H a.g (clampBox a.lower a.upper a.init) - qp a.H a.g r.x) := by
  set f0 := qp a.H a.g (clampBox a.lower a.upper a.init)
  set δ := c.armijo * c.minStep * (c.gradThre * c.gradThre) with hδ
  obtain ⟨s, hs, rfl⟩ := solve_rule (L := L) (c := c) (o := o)
    (fun s : State n ℝ => Inv8 L a s ∧ s.obj = qp a.H a.g s.x ∧ 1 ≤ s.iter ∧
      ((∀ e ∈ s.trace, c.minStep ≤ c.stepFactor ^ e.stepNum) → ((s.iter - 1 : ℕ) : ℝ) * δ ≤ a.H.trace * (f0 - s.obj)))
    (fun s => s.obj = qp a.H a.g s.x ∧
      ((∀ e ∈ s.trace, c.minStep ≤ c.stepFactor ^ e.stepNum) →
        ((if s.retval = 1 then s.iter else s.iter - 1 : ℕ) : ℝ) * δ ≤ a.H.trace * (f0 - s.obj)))
    ⟨inv8_init, objective_eq _ _ _, le_rfl, fun _ => by
      have : (initState a o).obj = f0 := objective_eq _ _ _
      rw [this]; simp [initState]⟩
    (fun s s' ⟨hs8, hso, hi, hsd⟩ h => by
      refine ⟨inv8_step hs8 h, ?_⟩
      have := mainStep_out L c a s
      rw [h] at this
      cases this with
      | next hn hok hgr d hd hsd' ls hl hit tr htr htr' =>
        refine ⟨(lineSearch_candidate hl).2.1.trans (objective_eq _ _ _), Nat.le_add_left _ _, fun hc => ?_⟩
        have h1 := hsd fun e he => hc e (List.mem_append_left _ he)
        have h2 := step_decrease_amount hL hH hg hf ha hs8 hok hgr hd hl
          (by rw [← htr'.2.2]; exact hc tr (by simp))
        have h3 : s.iter + 1 - 1 = (s.iter - 1) + 1 := by omega
        dsimp only
        rw [h3]
        push_cast
        linarith)
    (fun s s' ⟨hs8, hso, hi, hsd⟩ h => by
      have := mainStep_out L c a s
      rw [h] at this
      cases this with
      | maxIter hn hok hgr d hd hsd' ls hl hit tr htr htr' =>
        refine ⟨(lineSearch_candidate hl).2.1.trans (objective_eq _ _ _), fun hc => ?_⟩
        have h1 := hsd fun e he => hc e (List.mem_append_left _ he)
        have h2 := step_decrease_amount hL hH hg hf ha hs8 hok hgr hd hl
          (by rw [← htr'.2.2]; exact hc tr (by simp))
        have h3 : s.iter = (s.iter - 1) + 1 := by omega
        dsimp only
        rw [if_pos rfl, h3]
        push_cast
        linarith
      | _ => exact ⟨hso, fun hc => by simpa using hsd fun e he => hc e (List.mem_append_left _ he)⟩) h
  have := hs.2 hcut
  rw [hs.1] at this
  exact this

/-- A step that does not end the run passed the test of the relative improvement. -/
theorem mainStep_inl_rel {s s' : State n ℝ} (h : mainStep L c a s = .inl s') (hi : 1 < s.iter) :
    c.relImproveThre * |s.oldObj| ≤ s.oldObj - s.obj := by
  by_contra hcon
  rw [mainStep, if_pos] at h
  · cases h
  · simp [hi, abs_real]; exact not_le.1 hcon

/-- **C123**, number of iterations by the test of the relative improvement, for any `H` and any line search: if the recorded objectives
of all iterations but the last are at least `η` in absolute value and `m` is a lower bound of the objective over the box, the number of
iterations satisfies `(iter - 2) * rel_improve_thre * η ≤ f(x0) - m`. -/
theorem C123_relative (hlu : ∀ i, a.lower i ≤ a.upper i) (hρ : 0 ≤ c.relImproveThre) (h : solve L c o a = .ok r) {m η : ℝ}
    (hm : ∀ y, InBox a.lower a.upper y → m ≤ qp a.H a.g y)
    (hη : ∀ e ∈ r.obj.trace, 1 ≤ e.iter → e.iter < r.iter → η ≤ |e.obj|) :
    ((r.iter - 2 : ℕ) : ℝ) * (c.relImproveThre * η) ≤ qp a.H a.g (clampBox a.lower a.upper a.init) - m := by
  set f0 := qp a.H a.g (clampBox a.lower a.upper a.init)
  obtain ⟨s, hs, rfl⟩ := solve_rule (L := L) (c := c) (o := o)
    (fun s : State n ℝ => InvT s ∧ m ≤ s.obj ∧ (s.iter = 1 → s.obj = f0) ∧
      (2 ≤ s.iter → (∃ e ∈ s.trace, e.iter + 1 = s.iter ∧ e.obj = s.oldObj) ∧ m ≤ s.oldObj ∧
        ((∀ e ∈ s.trace, 1 ≤ e.iter → e.iter + 1 < s.iter → η ≤ |e.obj|) →
          ((s.iter - 2 : ℕ) : ℝ) * (c.relImproveThre * η) ≤ f0 - s.oldObj)))
    (fun s => (∀ e ∈ s.trace, 1 ≤ e.iter → e.iter < s.iter → η ≤ |e.obj|) →
      ((s.iter - 2 : ℕ) : ℝ) * (c.relImproveThre * η) ≤ f0 - m)
    ⟨⟨le_rfl, by simp [initState, Trace.new, List.range_succ]⟩,
      by rw [show (initState a o).obj = _ from objective_eq _ _ _]; exact hm _ (clampBox_inBox hlu _),
      fun _ => objective_eq _ _ _, fun h => absurd h (by simp [initState])⟩
    (fun s s' ⟨hT, hmo, h1, h2⟩ h => by
      have hrel := mainStep_inl_rel h
      refine ⟨invT_step hT h, ?_⟩
      have := mainStep_out L c a s
      rw [h] at this
      cases this with
      | next hn hok hgr d hd hsd' ls hl hit tr htr htr' =>
        refine ⟨?_, fun h => absurd h (by have := hT.1; dsimp only; omega), fun _ =>
          ⟨⟨tr, by simp, by rw [htr], htr'.2.1⟩, hmo, fun hc => ?_⟩⟩
        · obtain ⟨h3, h4, -⟩ := lineSearch_candidate hl
          show m ≤ ls.objc
          rw [h4, objective_eq, h3]
          exact hm _ (clampBox_inBox hlu _)
        · dsimp only at hc ⊢
          rcases Nat.lt_or_ge s.iter 2 with h5 | h5
          · have h6 : s.iter = 1 := by have := hT.1; omega
            rw [h1 h6, h6]; simp
          · obtain ⟨⟨e, he, hei, heo⟩, -, h7⟩ := h2 h5
            have h8 := h7 fun e he h9 h10 => hc e (List.mem_append_left _ he) h9 (by omega)
            have h9 := hc e (List.mem_append_left _ he) (by omega) (by omega)
            rw [heo] at h9
            have h10 := hrel (by omega)
            have h11 := mul_le_mul_of_nonneg_left h9 hρ
            have h12 : s.iter + 1 - 2 = (s.iter - 2) + 1 := by omega
            rw [h12]
            push_cast
            linarith)
    (fun s s' ⟨hT, hmo, h1, h2⟩ h => by
      have key : ∀ l : List (Trace n ℝ), (∀ e ∈ s.trace ++ l, 1 ≤ e.iter → e.iter < s.iter → η ≤ |e.obj|) →
          ((s.iter - 2 : ℕ) : ℝ) * (c.relImproveThre * η) ≤ f0 - m := by
        intro l hc
        rcases Nat.lt_or_ge s.iter 2 with h5 | h5
        · have h6 : s.iter = 1 := by have := hT.1; omega
          have := h1 h6
          rw [h6]; simp; linarith
        · obtain ⟨-, h6, h7⟩ := h2 h5
          have := h7 fun e he h9 h10 => hc e (List.mem_append_left _ he) h9 (by omega)
          linarith
      have := mainStep_out L c a s
      rw [h] at this
      cases this <;> exact key _) h
  exact hs hη

/-- **C123**, the same starting from a negative objective, without assumptions on the recorded values: the number of iterations is at
most logarithmic, `(1 + rel_improve_thre) ^ (iter - 2) * |f(x0)| ≤ |m|`. -/
theorem C123_relative_negative (hlu : ∀ i, a.lower i ≤ a.upper i) (hρ : 0 ≤ c.relImproveThre) (h : solve L c o a = .ok r) {m : ℝ}
    (hm : ∀ y, InBox a.lower a.upper y → m ≤ qp a.H a.g y)
    (h0 : qp a.H a.g (clampBox a.lower a.upper a.init) < 0) :
    (1 + c.relImproveThre) ^ (r.iter - 2) * |qp a.H a.g (clampBox a.lower a.upper a.init)| ≤ |m| := by
  set f0 := qp a.H a.g (clampBox a.lower a.upper a.init)
  have hmf : m ≤ f0 := hm _ (clampBox_inBox hlu _)
  rw [abs_of_neg h0, abs_of_neg (hmf.trans_lt h0)]
  obtain ⟨s, hs, rfl⟩ := solve_rule (L := L) (c := c) (o := o)
    (fun s : State n ℝ => 1 ≤ s.iter ∧ m ≤ s.obj ∧ (s.iter = 1 → s.obj = f0) ∧
      (2 ≤ s.iter → m ≤ s.oldObj ∧ (1 + c.relImproveThre) ^ (s.iter - 2) * -f0 ≤ -s.oldObj))
    (fun s => (1 + c.relImproveThre) ^ (s.iter - 2) * -f0 ≤ -m)
    ⟨le_rfl, by rw [show (initState a o).obj = _ from objective_eq _ _ _]; exact hm _ (clampBox_inBox hlu _),
      fun _ => objective_eq _ _ _, fun h => absurd h (by simp [initState])⟩
    (fun s s' ⟨hT, hmo, h1, h2⟩ h => by
      have hrel := mainStep_inl_rel h
      have := mainStep_out L c a s
      rw [h] at this
      cases this with
      | next hn hok hgr d hd hsd' ls hl hit tr htr htr' =>
        refine ⟨Nat.le_add_left _ _, ?_, fun h => absurd h (by dsimp only; omega), fun _ => ⟨hmo, ?_⟩⟩
        · obtain ⟨h3, h4, -⟩ := lineSearch_candidate hl
          show m ≤ ls.objc
          rw [h4, objective_eq, h3]
          exact hm _ (clampBox_inBox hlu _)
        · dsimp only
          rcases Nat.lt_or_ge s.iter 2 with h5 | h5
          · have h6 : s.iter = 1 := by omega
            rw [h1 h6, h6]; simp
          · have h7 := (h2 h5).2
            have h8 : 0 ≤ (1 + c.relImproveThre) ^ (s.iter - 2) * -f0 := mul_nonneg (pow_nonneg (by linarith) _) (by linarith)
            have h10 := hrel (by omega)
            rw [abs_of_nonpos (by linarith)] at h10
            have h12 : s.iter + 1 - 2 = (s.iter - 2) + 1 := by omega
            have h13 := mul_le_mul_of_nonneg_left h7 (by linarith : 0 ≤ 1 + c.relImproveThre)
            rw [h12, pow_succ]
            linarith)
    (fun s s' ⟨hT, hmo, h1, h2⟩ h => by
      have key : (1 + c.relImproveThre) ^ (s.iter - 2) * -f0 ≤ -m := by
        rcases Nat.lt_or_ge s.iter 2 with h5 | h5
        · have h6 : s.iter = 1 := by omega
          rw [h6]; simp; linarith
        · have := h2 h5
          linarith
      have := mainStep_out L c a s
      rw [h] at this
      cases this <;> exact key) h
  exact hs

/-! ## Cases -/

/-- `min ½ xᵀ[[2, 1], [1, 2]]x + (-1, 3)·x` over `[0, 1]²` from `(1/4, 0)`, with minimiser `(1/2, 0)`. -/
noncomputable def exArgs123 : Args 2 ℝ where
  H := !![2, 1; 1, 2]
  g := ![-1, 3]
  lower := fun _ => 0
  upper := fun _ => 1
  init := ![1 / 4, 0]

theorem exArgs123_posDef : exArgs123.H.PosDef := by
  rw [posDef_iff]
  refine ⟨by ext i j; fin_cases i <;> fin_cases j <;> rfl, fun v hv => ?_⟩
  have h : v ⬝ᵥ (exArgs123.H *ᵥ v) = v 0 ^ 2 + v 1 ^ 2 + (v 0 + v 1) ^ 2 := by
    simp [exArgs123, dotProduct, mulVec, Fin.sum_univ_two]; ring
  rw [h]
  rcases not_and_or.1 (fun h : v 0 = 0 ∧ v 1 = 0 => hv (by ext i; fin_cases i; exacts [h.1, h.2])) with h0 | h0
  · have := sq_nonneg (v 1); have := sq_nonneg (v 0 + v 1); have := sq_pos_of_ne_zero h0; linarith
  · have := sq_nonneg (v 0); have := sq_nonneg (v 0 + v 1); have := sq_pos_of_ne_zero h0; linarith

theorem exArgs123_local (hL : L.Exact) {o : Obj 2 ℝ} :
    (∀ y, InBox exArgs123.lower exArgs123.upper y → qp exArgs123.H exArgs123.g ![1 / 2, 0] ≤ qp exArgs123.H exArgs123.g y) ∧
    ∃ r, solve L Config.default o exArgs123 = .ok r ∧ r.iter ≤ 2 ∧ r.obj.retval ∈ ([1, 4, 5, 6] : List ℤ) ∧
      (r.x = ![1 / 2, 0] ∨ (r.x = exArgs123.init ∧ r.obj.retval = 5)) :=
  C123_local (ε := 1 / 4) (c := Config.default) hL exArgs123_posDef (by norm_num [Config.default]) (by norm_num [Config.default])
    (by intro i; fin_cases i <;> norm_num [exArgs123])
    (by
      intro i
      fin_cases i
      · right; right; norm_num [exArgs123, mulVec, dotProduct, Fin.sum_univ_two]
      · left; norm_num [exArgs123, mulVec, dotProduct, Fin.sum_univ_two])
    (by intro i; fin_cases i <;> norm_num [exArgs123])
    (by intro i; fin_cases i <;> norm_num [exArgs123, abs_le])
    (by intro i; fin_cases i <;> norm_num [exArgs123])

/-- The run of the case above ends at the minimiser. -/
theorem exArgs123_run (hL : L.Exact) {o : Obj 2 ℝ} :
    ∃ r, solve L Config.default o exArgs123 = .ok r ∧ r.iter ≤ 2 ∧ r.x = ![1 / 2, 0] := by
  classical
  have hc1 : ClampedAt exArgs123 exArgs123.init 1 := by
    left; norm_num [exArgs123, mulVec, dotProduct, Fin.sum_univ_two]
  have hc0 : ¬ ClampedAt exArgs123 exArgs123.init 0 := by
    rintro (⟨h, -⟩ | ⟨h, -⟩) <;> norm_num [exArgs123] at h
  obtain ⟨-, r, h1, h2, -, -, h3⟩ := C123_active_set (L := L) (o := o) (a := exArgs123) (c := Config.default) hL exArgs123_posDef
    (fun i => by norm_num [exArgs123]) (by norm_num [Config.default]) (by norm_num [Config.default]) (x0 := exArgs123.init)
    (xs := ![1 / 2, 0])
    (by intro i; fin_cases i <;> norm_num [exArgs123])
    (by
      intro i hi
      fin_cases i
      · exact absurd hi hc0
      · norm_num [exArgs123, mulVec, dotProduct, Fin.sum_univ_two])
    (by
      intro i hi
      fin_cases i
      · norm_num [exArgs123, mulVec, dotProduct, Fin.sum_univ_two]
      · exact absurd hc1 hi)
    (by intro i; fin_cases i <;> norm_num [exArgs123])
  refine ⟨r, h1, h2, h3 ?_⟩
  rw [Fin.sum_univ_two, if_neg hc0, if_pos hc1]
  norm_num [exArgs123, mulVec, dotProduct, Fin.sum_univ_two, Config.default]

/-- The bound by the relative improvement for the case above: the objective is `-3/16` at the start and at least `-1/4`. -/
example (hL : L.Exact) {o : Obj 2 ℝ} {r : Result 2 ℝ} (h : solve L Config.default o exArgs123 = .ok r) :
    (1 + 1e-8 : ℝ) ^ (r.iter - 2) * (3 / 16) ≤ 1 / 4 := by
  have hx : clampBox exArgs123.lower exArgs123.upper exArgs123.init = exArgs123.init :=
    clampBox_of_inBox (by intro i; fin_cases i <;> norm_num [exArgs123])
  have hf : qp exArgs123.H exArgs123.g exArgs123.init = -3 / 16 := by
    norm_num [qp, exArgs123, mulVec, dotProduct, Fin.sum_univ_two]
  have hm : qp exArgs123.H exArgs123.g ![1 / 2, 0] = -1 / 4 := by
    norm_num [qp, exArgs123, mulVec, dotProduct, Fin.sum_univ_two]
  have := C123_relative_negative (a := exArgs123) (c := Config.default) (m := -1 / 4) (fun i => by norm_num [exArgs123])
    (by norm_num [Config.default]) h
    (fun y hy => by rw [← hm]; exact (exArgs123_local hL (o := o)).1 y hy) (by rw [hx, hf]; norm_num)
  rw [hx, hf] at this
  norm_num [Config.default, abs_of_neg] at this ⊢
  exact this

end Nmpc.BoxQP
