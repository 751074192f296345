import Verif.BoxQP.RelImprove
import Mathlib.Tactic.NormNum.Basic

/-!
# C91: separable programs are solved exactly, among them the five programs of the unit test

`TestBoxQP.cpp` runs the solver on five programs with `H = diag(1, 1/2)`.
-/

namespace Nmpc.BoxQP

open Matrix

variable {n : ℕ} {L : LLT ℝ} {c : Config ℝ} {a : Args n ℝ} {o : Obj n ℝ} {r : Result n ℝ}

theorem diag_mulVec (h x : Vec n ℝ) (i : Fin n) : (Matrix.diagonal h *ᵥ x) i = h i * x i :=
  Matrix.mulVec_diagonal h x i

theorem diag_posDef {h : Vec n ℝ} (hh : ∀ i, 0 < h i) : (Matrix.diagonal h).PosDef :=
  Matrix.PosDef.diagonal hh

/-- Coordinate-wise minimiser of a separable program. -/
theorem separable_min {h g l u : Vec n ℝ} (hh : ∀ i, 0 < h i) (hlu : ∀ i, l i ≤ u i) {xs : Vec n ℝ}
    (hxs : ∀ i, xs i = max (min (-g i / h i) (u i)) (l i)) :
    InBox l u xs ∧ ∀ y, InBox l u y → qp (Matrix.diagonal h) g xs ≤ qp (Matrix.diagonal h) g y := by
  refine ⟨fun i => ⟨by rw [hxs]; exact le_max_right _ _, by rw [hxs]; exact max_le (min_le_right _ _) (hlu i)⟩, ?_⟩
  intro y hy
  have hp := posDef_iff.1 (diag_posDef hh)
  rw [qp_expand' hp.1 g xs y]
  have h1 : 0 ≤ (g + Matrix.diagonal h *ᵥ xs) ⬝ᵥ (y - xs) := by
    refine Finset.sum_nonneg fun i _ => ?_
    have hi := hh i
    rw [Pi.add_apply, diag_mulVec, Pi.sub_apply]
    have hq : g i = -(h i * (-g i / h i)) := by field_simp
    have hx := hxs i
    generalize -g i / h i = q at hq hx
    obtain ⟨hy1, hy2⟩ := hy i
    have he : g i + h i * xs i = h i * (xs i - q) := by rw [hq]; ring
    rw [he, mul_assoc]
    refine mul_nonneg hi.le ?_
    rcases le_total q (u i) with h2 | h2
    · rw [min_eq_left h2] at hx
      rcases le_total q (l i) with h3 | h3
      · rw [max_eq_right h3] at hx
        rw [hx]; exact mul_nonneg (by linarith) (by linarith)
      · rw [max_eq_left h3] at hx; rw [hx]; simp
    · rw [min_eq_right h2, max_eq_left (hlu i)] at hx
      rw [hx]; exact mul_nonneg_of_nonpos_of_nonpos (by linarith) (by linarith)
  have h2 : 0 ≤ (y - xs) ⬝ᵥ (Matrix.diagonal h *ᵥ (y - xs)) := by
    refine Finset.sum_nonneg fun i _ => ?_
    rw [diag_mulVec]
    nlinarith [hh i, mul_self_nonneg ((y - xs) i)]
  linarith

/-- Facts about one coordinate at a feasible iterate: if it is clamped, it is already optimal; if it is free and optimal, its
gradient vanishes. -/
theorem coord_clamped {h g l u x xs : ℝ} (hh : 0 < h) (hx : l ≤ x ∧ x ≤ u)
    (hxs : xs = max (min (-g / h) u) l) (hc : (x = l ∧ 0 < g + h * x) ∨ (x = u ∧ g + h * x < 0)) : xs = x := by
  have hq : g = -(h * (-g / h)) := by field_simp
  generalize -g / h = q at hq hxs
  have he : g + h * x = h * (x - q) := by rw [hq]; ring
  rw [he] at hc
  rcases hc with ⟨h1, h2⟩ | ⟨h1, h2⟩
  · have : q < x := by have := (mul_pos_iff_of_pos_left hh).1 h2; linarith
    rw [hxs, min_eq_left (by linarith [hx.2]), max_eq_right (by linarith), h1]
  · have : x < q := by
      by_contra h3
      have := mul_nonneg hh.le (sub_nonneg.2 (not_lt.1 h3)); linarith
    rw [hxs, min_eq_right (by linarith), max_eq_left (by linarith [hx.1, hx.2]), h1]

theorem coord_free {h g l u x xs : ℝ} (hh : 0 < h)
    (hxs : xs = max (min (-g / h) u) l) (hc : ¬ ((x = l ∧ 0 < g + h * x) ∨ (x = u ∧ g + h * x < 0))) (he : xs = x)
    (hlu : l ≤ u) : g + h * x = 0 := by
  have hq : g = -(h * (-g / h)) := by field_simp
  generalize -g / h = q at hq hxs
  have hg : g + h * x = h * (x - q) := by rw [hq]; ring
  rw [hg] at hc ⊢
  rw [he] at hxs
  by_contra hne
  have hne' : x ≠ q := fun h => hne (by rw [h]; ring)
  rcases le_total q u with h2 | h2
  · rw [min_eq_left h2] at hxs
    rcases le_total q l with h3 | h3
    · rw [max_eq_right h3] at hxs
      refine hc (Or.inl ⟨hxs, mul_pos hh (sub_pos.2 (lt_of_le_of_ne ?_ hne'.symm))⟩)
      linarith
    · rw [max_eq_left h3] at hxs; exact hne' hxs
  · rw [min_eq_right h2, max_eq_left hlu] at hxs
    refine hc (Or.inr ⟨hxs, mul_neg_of_pos_of_neg hh (sub_neg.2 (lt_of_le_of_ne ?_ hne'))⟩)
    linarith

/-- Clipping moves a feasible coordinate towards the unconstrained minimiser, by at most the full distance. -/
theorem coord_clip {l u x q xs : ℝ} (hx : l ≤ x ∧ x ≤ u) (hxs : xs = max (min q u) l) :
    |xs - x| ≤ |q - x| ∧ (xs - x) * (q - x) = |xs - x| * |q - x| := by
  obtain ⟨h1, h2⟩ := hx
  rcases le_total x q with h3 | h3
  · have h4 : x ≤ xs := by rw [hxs]; exact le_max_of_le_left (le_min h3 h2)
    have h5 : xs ≤ q := by rw [hxs]; exact max_le (min_le_left _ _) (h1.trans h3)
    rw [abs_of_nonneg (sub_nonneg.2 h4), abs_of_nonneg (sub_nonneg.2 h3)]
    exact ⟨by linarith, rfl⟩
  · have h4 : xs ≤ x := by rw [hxs]; exact max_le ((min_le_left _ _).trans h3) h1
    have h5 : q ≤ xs := by
      rw [hxs]
      exact le_max_of_le_left (le_min le_rfl (h3.trans h2))
    rw [abs_of_nonpos (sub_nonpos.2 h4), abs_of_nonpos (sub_nonpos.2 h3)]
    exact ⟨by linarith, by ring⟩

/-- **C91** For a diagonal `H` with positive entries and `lower ≤ upper`, let `xs` be the clipped unconstrained minimiser and
`x0` the clipped initial guess. If in each coordinate the minimiser is already attained or clipping keeps at least the
fraction `2 * armijo` of the full step and the gradient is not below the threshold, then `solve` returns `xs`, after at most two iterations. -/
theorem C91_separable (hL : L.Exact) {h : Vec n ℝ} (hHd : a.H = Matrix.diagonal h) (hh : ∀ i, 0 < h i)
    (hlu : ∀ i, a.lower i ≤ a.upper i) {x0 xs : Vec n ℝ}
    (hx0 : ∀ i, x0 i = max (min (a.init i) (a.upper i)) (a.lower i))
    (hxs : ∀ i, xs i = max (min (-a.g i / h i) (a.upper i)) (a.lower i))
    (hthre : c.gradThre ≠ 0)
    (hstep : ∀ i, xs i = x0 i ∨ (2 * c.armijo * |-a.g i / h i - x0 i| ≤ |xs i - x0 i| ∧
      |c.gradThre| ≤ |a.g i + h i * x0 i|)) :
    ∃ r, solve L c o a = .ok r ∧ r.x = xs ∧ r.iter ≤ 2 ∧ r.obj.retval ∈ ([1, 4, 5, 6] : List ℤ) ∧
      InBox a.lower a.upper xs ∧ ∀ y, InBox a.lower a.upper y → qp a.H a.g xs ≤ qp a.H a.g y := by
  have hmin := separable_min (g := a.g) hh hlu hxs
  rw [← hHd] at hmin
  have hH : a.H.PosDef := by rw [hHd]; exact diag_posDef hh
  have hpd := posDef_iff.1 hH
  have hgrad : ∀ (x : Vec n ℝ) i, gradient a x i = a.g i + h i * x i := by
    intro x i; rw [gradient_real, hHd, Pi.add_apply, diag_mulVec]
  have hflag : ∀ (s : State n ℝ) i, flagsAt a s i = true ↔
      ((s.x i = a.lower i ∧ 0 < a.g i + h i * s.x i) ∨ (s.x i = a.upper i ∧ a.g i + h i * s.x i < 0)) := by
    intro s i
    simp only [flagsAt, clampedFlags, Bool.or_eq_true, Bool.and_eq_true, eqb_real, ltb_real, hgrad]
  have hnofail : ∀ s : State n ℝ, L.ok (subMat a.H (freeAt a s) (freeAt a s)) ≠ false := by
    intro s hok
    have hPD : (subMat a.H (freeAt a s) (freeAt a s)).PosDef := subMat_posDef hH _
    rw [← hL.ok_iff _ (posDef_iff.1 hPD).1] at hPD
    rw [hPD] at hok; cases hok
  have hfgn : ∀ s : State n ℝ, freeGradNorm (gradient a s.x) (freeAt a s) =
      ∑ i, if flagsAt a s i = true then 0 else (a.g i + h i * s.x i) * (a.g i + h i * s.x i) := by
    intro s
    rw [freeAt, freeGradNorm_eq]
    refine Finset.sum_congr rfl fun i _ => ?_
    rw [hgrad]
    cases flagsAt a s i <;> simp
  -- an iterate equal to `xs` ends the run
  have second : ∀ s1 : State n ℝ, s1.x = xs → Inv8 L a s1 →
      ∃ s2, mainStep L c a s1 = .inr (.ok s2) ∧ s2.x = xs ∧ s2.iter = s1.iter ∧
        s2.retval ∈ ([1, 4, 5, 6] : List ℤ) := by
    intro s1 hx1 hinv1
    have hz : freeGradNorm (gradient a s1.x) (freeAt a s1) = 0 := by
      rw [hfgn]
      refine Finset.sum_eq_zero fun i _ => ?_
      split
      · rfl
      · rename_i hf
        rw [hflag] at hf
        rw [coord_free (hh i) (hxs i) hf (by rw [hx1]) (hlu i), mul_zero]
    have hlt : ltb (freeGradNorm (gradient a s1.x) (freeAt a s1)) (c.gradThre * c.gradThre) = true := by
      rw [hz, ltb_real]; exact mul_self_pos.2 hthre
    have hout := mainStep_out L c a s1
    generalize mainStep L c a s1 = z at hout
    cases hout with
    | rel _ h => exact ⟨_, rfl, hx1, rfl, by simp⟩
    | all h => exact ⟨_, rfl, hx1, rfl, by simp⟩
    | fail _ _ hok => exact absurd hok (hnofail _)
    | grad => exact ⟨_, rfl, hx1, rfl, by simp⟩
    | ub _ hok hd => rw [searchDirFree_coherent hinv1 hok] at hd; cases hd
    | ascent _ _ hg => rw [hlt] at hg; cases hg
    | diverge _ hg => rw [hlt] at hg; cases hg
    | maxIter _ _ hg => rw [hlt] at hg; cases hg
    | next _ _ hg => rw [hlt] at hg; cases hg
  obtain ⟨s0, hs0⟩ : ∃ s0, s0 = initState a o := ⟨_, rfl⟩
  have hx : s0.x = x0 := by
    rw [hs0]; funext i
    rw [hx0]; simp only [initState, clampBox, fmax_real, fmin_real]
  have hi0 : s0.iter = 1 := by rw [hs0]; rfl
  have ho0 : s0.obj = qp a.H a.g x0 := by
    rw [← hx, hs0]; exact objective_eq _ _ _
  have hinv0 : Inv8 L a s0 := by rw [hs0]; exact inv8_init
  have hbox : ∀ i, a.lower i ≤ x0 i ∧ x0 i ≤ a.upper i := fun i => by
    rw [hx0]; exact ⟨le_max_right _ _, max_le (min_le_right _ _) (hlu i)⟩
  by_cases heq : xs = x0
  · obtain ⟨s2, h2, h3, h4, h5⟩ := second s0 (hx.trans heq.symm) hinv0
    exact ⟨s2.result, by rw [solve, loopR, ← hs0, loopM_inr h2]; rfl, h3,
      by show s2.iter ≤ 2; omega, h5, hmin⟩
  -- the search direction
  have hfree : ∀ i, flagsAt a s0 i = false → dirAt L a s0 i = -a.g i / h i - x0 i := by
    intro i hf
    have h1 := mulVec_dirAt_free hL hH hf
    rw [hHd, diag_mulVec, hgrad, hx] at h1
    have := (hh i).ne'
    field_simp
    linarith
  have hcl : ∀ i, flagsAt a s0 i = true → dirAt L a s0 i = 0 ∧ xs i = x0 i := by
    intro i hf
    refine ⟨scatter_not_mem _ _ (by rw [freeAt, mem_idxs, hf]; simp), ?_⟩
    rw [hflag, hx] at hf
    exact coord_clamped (hh i) (hbox i) (hxs i) hf
  have hcand : candidate a s0.x (dirAt L a s0) 1 = xs := by
    funext i
    rw [candidate, smulv_real, one_smul, hx]
    simp only [clampBox, fmax_real, fmin_real, Pi.add_apply]
    cases hf : flagsAt a s0 i with
    | true =>
      obtain ⟨h1, h2⟩ := hcl i hf
      rw [h1, add_zero, h2, min_eq_left (hbox i).2, max_eq_left (hbox i).1]
    | false => rw [hfree i hf, add_sub_cancel, ← hxs]
  obtain ⟨k, hk⟩ : ∃ k, xs k ≠ x0 k := by
    by_contra hcon; push Not at hcon; exact heq (funext hcon)
  have hkf : flagsAt a s0 k = false := by
    cases hf : flagsAt a s0 k with
    | true => exact absurd (hcl k hf).2 hk
    | false => rfl
  have hge : c.gradThre * c.gradThre ≤ freeGradNorm (gradient a s0.x) (freeAt a s0) := by
    rw [hfgn, hx]
    have h1 := ((hstep k).resolve_left hk).2
    have h2 : c.gradThre * c.gradThre ≤ (a.g k + h k * x0 k) * (a.g k + h k * x0 k) := by
      rw [← abs_mul_abs_self c.gradThre, ← abs_mul_abs_self (a.g k + h k * x0 k)]
      exact mul_self_le_mul_self (abs_nonneg _) h1
    refine h2.trans ?_
    have := Finset.single_le_sum (s := Finset.univ)
      (f := fun i => if flagsAt a s0 i = true then 0 else (a.g i + h i * x0 i) * (a.g i + h i * x0 i))
      (fun i _ => by
        show (0 : ℝ) ≤ if _ then _ else _
        split
        · exact le_rfl
        · exact mul_self_nonneg _) (Finset.mem_univ k)
    simpa [hkf] using this
  have hsl := (dir_slope hL hH s0).2 (lt_of_lt_of_le (mul_self_pos.2 hthre) hge)
  have hval : qp a.H a.g xs - s0.obj ≤ c.armijo * (dirAt L a s0 ⬝ᵥ gradient a s0.x) := by
    rw [ho0, qp_expand' hpd.1 a.g x0 xs]
    have h1 : (a.g + a.H *ᵥ x0) ⬝ᵥ (xs - x0) + 1 / 2 * ((xs - x0) ⬝ᵥ (a.H *ᵥ (xs - x0))) ≤
        c.armijo * (dirAt L a s0 ⬝ᵥ gradient a s0.x) := by
      simp only [dotProduct]
      rw [Finset.mul_sum, Finset.mul_sum, ← Finset.sum_add_distrib]
      refine Finset.sum_le_sum fun i _ => ?_
      rw [hgrad, hx, hHd, Pi.add_apply, diag_mulVec, diag_mulVec, Pi.sub_apply]
      rcases hstep i with h2 | ⟨h2, -⟩
      · cases hf : flagsAt a s0 i with
        | true => rw [(hcl i hf).1, h2]; simp
        | false =>
          have hf' : ¬ (flagsAt a s0 i = true) := by rw [hf]; simp
          rw [hflag, hx] at hf'
          rw [coord_free (hh i) (hxs i) hf' h2 (hlu i), h2]; simp
      · cases hf : flagsAt a s0 i with
        | true => rw [(hcl i hf).1, (hcl i hf).2]; simp
        | false =>
          rw [hfree i hf]
          have hi := hh i
          obtain ⟨h3, h4⟩ := coord_clip (hbox i) (hxs i)
          have hq : a.g i = -(h i * (-a.g i / h i)) := by field_simp
          generalize -a.g i / h i = q at *
          have he : a.g i + h i * x0 i = -(h i * (q - x0 i)) := by rw [hq]; ring
          rw [he]
          generalize xs i - x0 i = δ at *
          generalize q - x0 i = d at *
          have h5 : δ * δ ≤ δ * d := by
            rw [h4, ← abs_mul_abs_self δ]; exact mul_le_mul_of_nonneg_left h3 (abs_nonneg _)
          have h6 : 2 * c.armijo * (d * d) ≤ δ * d := by
            rw [h4, ← abs_mul_abs_self d, ← mul_assoc]; exact mul_le_mul_of_nonneg_right h2 (abs_nonneg _)
          have h7 := mul_le_mul_of_nonneg_left h5 hi.le
          have h8 := mul_le_mul_of_nonneg_left h6 hi.le
          linarith
    linarith
  have hls : lineSearch c a s0.x (dirAt L a s0) s0.obj (dirAt L a s0 ⬝ᵥ gradient a s0.x) s0.retval =
      some (lsInit a s0.x (dirAt L a s0) s0.retval) := by
    refine loopM_inr ?_
    rw [lsStep, if_neg]
    simp only [lsInit, ltb_real, hcand, objective_eq, one_mul, not_lt]
    rw [le_div_iff_of_neg hsl]
    exact hval
  have hout := mainStep_out L c a s0
  generalize hz : mainStep L c a s0 = z at hout
  cases hout with
  | rel h1 => omega
  | all h => exact absurd (h k) (by simp [hkf])
  | fail _ _ hok => exact absurd hok (hnofail _)
  | grad _ _ hlt =>
    rw [ltb_real] at hlt
    exact absurd hge (not_le.2 hlt)
  | ub _ hok hd => rw [searchDirFree_coherent hinv0 hok] at hd; cases hd
  | ascent _ hok _ d hd hlt =>
    rw [step_searchDir hinv0 hok hd] at hlt
    simp only [dot_real, ltb_real, lit_real] at hlt
    norm_num at hlt
    linarith
  | diverge d _ hok hd hl =>
    rw [step_searchDir hinv0 hok hd, dot_real, hls] at hl
    cases hl
  | maxIter _ hok _ d hd _ ls hl hmi =>
    rw [step_searchDir hinv0 hok hd, dot_real, hls] at hl
    cases hl
    refine ⟨_, by rw [solve, loopR, ← hs0, loopM_inr hz]; rfl, hcand, ?_, by simp [State.result], hmin⟩
    show s0.iter ≤ 2; omega
  | next _ hok _ d hd _ ls hl =>
    have h8 := inv8_step hinv0 hz
    rw [step_searchDir hinv0 hok hd, dot_real, hls] at hl
    cases hl
    obtain ⟨s2, h2, h3, h4, h5⟩ := second _ (show _ = xs from hcand) h8
    refine ⟨s2.result, by rw [solve, loopR, ← hs0, loopM_inl hz, loopM_inr h2]; rfl, h3, ?_, h5, hmin⟩
    have h4' : s2.iter = s0.iter + 1 := h4
    show s2.iter ≤ 2; omega

/-- The five programs of the unit test (TestBoxQP.cpp 34-57 with fixed, 59-97 with dynamic dimension): gradient `g`, limits
`lower` and `upper`, and the expected solution. -/
inductive UnitTest : Vec 2 ℝ → Vec 2 ℝ → Vec 2 ℝ → Vec 2 ℝ → Prop
  | p1 : UnitTest ![1.5, 1] ![-10, -10] ![10, 10] ![-1.5, -2]
  | p2 : UnitTest ![1.5, 1] ![0.5, -2] ![5, 2] ![0.5, -2]
  | p3 : UnitTest ![1, 1.5] ![0, -1] ![5, -0.5] ![0, -1]
  | p4 : UnitTest ![1.5, 1] ![-5, -1] ![-2, 2] ![-2, -1]
  | p5 : UnitTest ![1, 1.5] ![-5, -10] ![-2, 10] ![-2, -3]

/-- `H` of the unit test (TestBoxQP.cpp 39, 64). -/
def unitTestH : Mat 2 2 ℝ := !![1, 0; 0, 0.5]

/-- **C91** The assertion of the unit test (TestBoxQP.cpp 28): with the default configuration the solution returned differs from the expected
one by less than `1e-6`; in exact arithmetic the two are equal, and the expected one is the minimiser over the box. -/
theorem C91_unit_test (hL : L.Exact) {o : Obj 2 ℝ} {g lower upper xgt : Vec 2 ℝ} (ht : UnitTest g lower upper xgt) :
    ∃ r, solve0 L Config.default o unitTestH g lower upper = .ok r ∧ r.x = xgt ∧ Real.sqrt ((r.x - xgt) ⬝ᵥ (r.x - xgt)) < 1e-6 ∧
      r.iter ≤ 2 ∧ ∀ y, InBox lower upper y → qp unitTestH g xgt ≤ qp unitTestH g y := by
  have key : ∃ r, solve0 L Config.default o unitTestH g lower upper = .ok r ∧ r.x = xgt ∧
      r.iter ≤ 2 ∧ ∀ y, InBox lower upper y → qp unitTestH g xgt ≤ qp unitTestH g y := by
    have hd : unitTestH = Matrix.diagonal ![1, 0.5] := by
      ext i j; fin_cases i <;> fin_cases j <;> simp [unitTestH]
    have := C91_separable (L := L) (c := Config.default) (o := o)
      (a := { H := unitTestH, g := g, lower := lower, upper := upper, init := fun _ => 0 }) hL hd
      (by intro i; fin_cases i <;> norm_num)
      (by cases ht <;> intro i <;> fin_cases i <;> norm_num)
      (x0 := fun i => max (min 0 (upper i)) (lower i)) (xs := xgt) (fun _ => rfl)
      (by cases ht <;> intro i <;> fin_cases i <;> norm_num)
      (by norm_num [Config.default])
      (by cases ht <;> intro i <;> fin_cases i <;> norm_num [Config.default, abs_of_pos, abs_of_neg])
    obtain ⟨r, h1, h2, h3, -, -, h4⟩ := this
    exact ⟨r, h1, h2, h3, h4⟩
  obtain ⟨r, h1, h2, h3, h4⟩ := key
  refine ⟨r, h1, h2, ?_, h3, h4⟩
  rw [h2, sub_self, dotProduct_zero, Real.sqrt_zero]
  norm_num

end Nmpc.BoxQP
