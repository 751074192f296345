import Verif.BoxQP.Separable

/-!
# C91: separable programs need at most one iteration more than they have variables
-/

namespace Nmpc.BoxQP

open Matrix

variable {n : ℕ} {L : LLT ℝ} {c : Config ℝ} {a : Args n ℝ} {o : Obj n ℝ} {r : Result n ℝ}

/-- One coordinate of a clipped step. -/
theorem coord_step {h l u x d q xs t δ : ℝ} (hh : 0 < h) (hx : l ≤ x ∧ x ≤ u) (hxs : xs = max (min q u) l)
    (hd : d = q - x) (ht0 : 0 ≤ t) (ht1 : t ≤ 1) (hδ : δ = max (min (x + t * d) u) l - x) :
    -(h * d) * δ + 1 / 2 * (δ * (h * δ)) ≤ -(h * (|δ| * |d|)) / 2 ∧ |δ| ≤ t * |d| ∧
      (|δ| < t * |d| → xs = x + δ) := by
  obtain ⟨h1, h2⟩ := coord_clip hx (xs := x + δ) (q := x + t * d) (by rw [hδ]; ring)
  rw [add_sub_cancel_left, add_sub_cancel_left, abs_mul, abs_of_nonneg ht0] at h1
  have hle : |δ| ≤ |d| := h1.trans (by nlinarith [abs_nonneg d])
  have hsg : δ * d = |δ| * |d| := by
    rcases le_total 0 d with h3 | h3
    · have : 0 ≤ δ := by
        rw [hδ]
        have : x ≤ max (min (x + t * d) u) l :=
          le_max_of_le_left (le_min (by nlinarith) hx.2)
        linarith
      rw [abs_of_nonneg this, abs_of_nonneg h3]
    · have : δ ≤ 0 := by
        rw [hδ]
        have : max (min (x + t * d) u) l ≤ x := max_le ((min_le_left _ _).trans (by nlinarith)) hx.1
        linarith
      rw [abs_of_nonpos this, abs_of_nonpos h3]; ring
  refine ⟨?_, h1, ?_⟩
  · have h5 : δ * δ ≤ |δ| * |d| := by
      rw [← abs_mul_abs_self δ]; exact mul_le_mul_of_nonneg_left hle (abs_nonneg _)
    have h7 := mul_le_mul_of_nonneg_left h5 hh.le
    have h8 : -(h * d) * δ = -(h * (|δ| * |d|)) := by rw [← hsg]; ring
    rw [h8]; linarith
  · intro hlt
    rw [hxs, hδ, add_sub_cancel]
    have hq : q = x + d := by rw [hd]; ring
    rw [hq]
    rcases le_total 0 d with h3 | h3
    · have htd : t * d ≤ d := by nlinarith
      rcases le_total (x + t * d) u with h4 | h4
      · exfalso
        rw [min_eq_left h4, max_eq_left (by nlinarith [hx.1])] at hδ
        rw [hδ, add_sub_cancel_left, abs_mul, abs_of_nonneg ht0] at hlt
        exact lt_irrefl _ hlt
      · rw [min_eq_right h4, min_eq_right (by linarith)]
    · have htd : d ≤ t * d := by nlinarith
      have h5 : x + t * d ≤ u := by nlinarith [hx.2]
      rcases le_total l (x + t * d) with h4 | h4
      · exfalso
        rw [min_eq_left h5, max_eq_left h4] at hδ
        rw [hδ, add_sub_cancel_left, abs_mul, abs_of_nonneg ht0] at hlt
        exact lt_irrefl _ hlt
      · rw [min_eq_left h5, min_eq_left (by linarith), max_eq_right h4, max_eq_right (by linarith)]

/-- If a step is clipped to less than the length of a shorter step, the shorter step and the full one are clipped to the same point. -/
theorem coord_shorter {l u x d t t' δ : ℝ} (hx : l ≤ x ∧ x ≤ u) (ht0 : 0 ≤ t') (htt : t' ≤ t) (ht1 : t ≤ 1)
    (hδ : x + δ = max (min (x + t * d) u) l) (hlt : |δ| < t' * |d|) :
    max (min (x + t' * d) u) l = max (min (x + d) u) l := by
  obtain ⟨hl, hu⟩ := hx
  rcases le_total 0 d with h3 | h3
  · rw [abs_of_nonneg h3] at hlt
    have h4 : δ < t' * d := (le_abs_self δ).trans_lt hlt
    have h5 : t' * d ≤ t * d := mul_le_mul_of_nonneg_right htt h3
    have h6 : t * d ≤ d := by nlinarith
    have h8 : min (x + t * d) u ≤ x + δ := by rw [hδ]; exact le_max_left _ _
    rcases le_total (x + t * d) u with h7 | h7
    · rw [min_eq_left h7] at h8; linarith
    · rw [min_eq_right h7] at h8
      rw [min_eq_right (by linarith), min_eq_right (by linarith)]
  · rw [abs_of_nonpos h3] at hlt
    have h4 : t' * d < δ := by have := neg_abs_le δ; linarith
    have h5 : t * d ≤ t' * d := mul_le_mul_of_nonpos_right htt h3
    have h6 : d ≤ t * d := by nlinarith
    have h7 : t' * d ≤ 0 := mul_nonpos_of_nonneg_of_nonpos ht0 h3
    have h8 : x + δ ≤ l := by
      by_contra hc
      rw [not_le] at hc
      rw [hδ] at hc
      have h9 : l < min (x + t * d) u := by
        by_contra h10
        rw [max_eq_right (not_lt.1 h10)] at hc; exact lt_irrefl _ hc
      rw [max_eq_left h9.le] at hδ
      have := min_le_left (x + t * d) u
      linarith
    rw [min_eq_left (by linarith), min_eq_left (by linarith), max_eq_right (by linarith), max_eq_right (by linarith)]

/-- Number of coordinates that have reached their optimal value. -/
noncomputable def doneCount (xs x : Vec n ℝ) : ℕ := (Finset.univ.filter fun i => x i = xs i).card

theorem doneCount_le (xs x : Vec n ℝ) : doneCount xs x ≤ n := by
  have := Finset.card_filter_le (Finset.univ : Finset (Fin n)) (fun i => x i = xs i)
  simpa [doneCount] using this

theorem doneCount_lt {xs x x' : Vec n ℝ} (hk : ∀ i, x i = xs i → x' i = xs i) {k : Fin n} (h1 : x k ≠ xs k)
    (h2 : x' k = xs k) : doneCount xs x < doneCount xs x' := by
  refine Finset.card_lt_card ?_
  rw [Finset.ssubset_iff_of_subset]
  · exact ⟨k, by simp [h2], by simp [h1]⟩
  · intro i hi
    simp only [Finset.mem_filter, Finset.mem_univ, true_and] at hi ⊢
    exact hk i hi

/-- **C91** For a diagonal `H` with positive entries and `lower ≤ upper`, if `2 armijo ≤ step_factor ≤ 1` every run that returns
does so after at most `n + 1` iterations, whatever the initial guess; it reports the iteration limit only if the limit is at most `n`, and
a relative improvement below the threshold only if that threshold is positive. -/
theorem C91_finite (hL : L.Exact) {h : Vec n ℝ} (hHd : a.H = Matrix.diagonal h) (hh : ∀ i, 0 < h i)
    (hlu : ∀ i, a.lower i ≤ a.upper i) (hthre : c.gradThre ≠ 0)
    (hf0 : 0 < c.stepFactor) (hf1 : c.stepFactor ≤ 1) (harm : 2 * c.armijo ≤ c.stepFactor)
    (hr : solve L c o a = .ok r) :
    r.iter ≤ n + 1 ∧ r.obj.retval ∈ ([1, 4, 5, 6] : List ℤ) ∧ (r.obj.retval = 1 → c.maxIter ≤ n) ∧
      (r.obj.retval = 4 → 0 < c.relImproveThre) := by
  obtain ⟨xs, hxs⟩ : ∃ xs : Vec n ℝ, ∀ i, xs i = max (min (-a.g i / h i) (a.upper i)) (a.lower i) := ⟨_, fun _ => rfl⟩
  have hH : a.H.PosDef := by rw [hHd]; exact diag_posDef hh
  have hpd := posDef_iff.1 hH
  have hgrad : ∀ (x : Vec n ℝ) i, gradient a x i = a.g i + h i * x i := by
    intro x i; rw [gradient_real, hHd, Pi.add_apply, diag_mulVec]
  have hflag : ∀ (s : State n ℝ) i, flagsAt a s i = true ↔
      ((s.x i = a.lower i ∧ 0 < a.g i + h i * s.x i) ∨ (s.x i = a.upper i ∧ a.g i + h i * s.x i < 0)) := by
    intro s i
    simp only [flagsAt, clampedFlags, Bool.or_eq_true, Bool.and_eq_true, eqb_real, ltb_real, hgrad]
  have hnofail : ∀ s : State n ℝ, L.ok (subMat a.H (freeAt a s) (freeAt a s)) ≠ false := by
    intro s hok
    have hPD : (subMat a.H (freeAt a s) (freeAt a s)).PosDef := subMat_posDef hH _
    rw [← hL.ok_iff _ (posDef_iff.1 hPD).1] at hPD
    rw [hPD] at hok; cases hok
  have hfgn : ∀ s : State n ℝ, freeGradNorm (gradient a s.x) (freeAt a s) =
      ∑ i, if flagsAt a s i = true then 0 else (a.g i + h i * s.x i) * (a.g i + h i * s.x i) := by
    intro s
    rw [freeAt, freeGradNorm_eq]
    refine Finset.sum_congr rfl fun i _ => ?_
    rw [hgrad]
    cases flagsAt a s i <;> simp
  -- coordinates of the search direction
  have hdir : ∀ s : State n ℝ, InBox a.lower a.upper s.x → ∀ i,
      (dirAt L a s i = 0 ∧ xs i = s.x i) ∨
        (dirAt L a s i = -a.g i / h i - s.x i ∧ gradient a s.x i = -(h i * dirAt L a s i)) := by
    intro s hb i
    cases hf : flagsAt a s i with
    | true =>
      refine Or.inl ⟨scatter_not_mem _ _ (by rw [freeAt, mem_idxs, hf]; simp), ?_⟩
      rw [hflag] at hf
      exact coord_clamped (hh i) (hb i) (hxs i) hf
    | false =>
      have h1 := mulVec_dirAt_free hL hH hf
      rw [hHd, diag_mulVec] at h1
      refine Or.inr ⟨?_, by linarith⟩
      rw [hgrad] at h1
      have := (hh i).ne'
      field_simp
      linarith
  have hkeep : ∀ s : State n ℝ, InBox a.lower a.upper s.x → ∀ i, s.x i = xs i → dirAt L a s i = 0 := by
    intro s hb i hi
    rcases hdir s hb i with h1 | ⟨h1, -⟩
    · exact h1.1
    · cases hf : flagsAt a s i with
      | true => exact scatter_not_mem _ _ (by rw [freeAt, mem_idxs, hf]; simp)
      | false =>
        have hf' : ¬ (flagsAt a s i = true) := by rw [hf]; simp
        rw [hflag] at hf'
        have h2 := coord_free (hh i) (hxs i) hf' hi.symm (hlu i)
        rw [h1]
        have := (hh i).ne'
        field_simp
        linarith
  have hcandi : ∀ (s : State n ℝ) t i, candidate a s.x (dirAt L a s) t i =
      max (min (s.x i + t * dirAt L a s i) (a.upper i)) (a.lower i) := by
    intro s t i
    rw [candidate, smulv_real]
    simp only [clampBox, fmax_real, fmin_real, Pi.add_apply, Pi.smul_apply, smul_eq_mul]
  have hfix : ∀ s : State n ℝ, InBox a.lower a.upper s.x → ∀ t i, s.x i = xs i →
      candidate a s.x (dirAt L a s) t i = xs i := by
    intro s hb t i hi
    rw [hcandi, hkeep s hb i hi, mul_zero, add_zero, min_eq_left (hb i).2, max_eq_left (hb i).1, hi]
  -- change of the objective, coordinate by coordinate
  have hchange : ∀ s : State n ℝ, InBox a.lower a.upper s.x → ∀ t, 0 ≤ t → t ≤ 1 → ∀ i,
      ∃ δ, candidate a s.x (dirAt L a s) t i = s.x i + δ ∧
        gradient a s.x i * δ + 1 / 2 * (δ * (h i * δ)) ≤ -(h i * (|δ| * |dirAt L a s i|)) / 2 ∧
        |δ| ≤ t * |dirAt L a s i| ∧ (|δ| < t * |dirAt L a s i| → xs i = s.x i + δ) := by
    intro s hb t ht0 ht1 i
    refine ⟨candidate a s.x (dirAt L a s) t i - s.x i, by ring, ?_⟩
    rcases hdir s hb i with ⟨h1, h2⟩ | ⟨h1, h2⟩
    · rw [hfix s hb t i h2.symm, h1, h2]; simp
    · rw [h2]
      exact coord_step (hh i) (hb i) (hxs i) h1 ht0 ht1 (by rw [hcandi])
  have hsum : ∀ (x y : Vec n ℝ), qp a.H a.g y - qp a.H a.g x =
      ∑ i, (gradient a x i * (y i - x i) + 1 / 2 * ((y i - x i) * (h i * (y i - x i)))) := by
    intro x y
    rw [qp_expand' hpd.1 a.g x y]
    simp only [dotProduct]
    rw [Finset.sum_add_distrib, ← Finset.mul_sum]
    have h1 : ∀ i, (a.g + a.H *ᵥ x) i = gradient a x i := fun i => rfl
    have h2 : ∀ i, (a.H *ᵥ (y - x)) i = h i * (y i - x i) := fun i => by rw [hHd, diag_mulVec]; rfl
    simp only [h1, h2, Pi.sub_apply]
    ring
  have hdesc : ∀ s : State n ℝ, InBox a.lower a.upper s.x → ∀ t, 0 ≤ t → t ≤ 1 →
      qp a.H a.g (candidate a s.x (dirAt L a s) t) ≤ qp a.H a.g s.x := by
    intro s hb t ht0 ht1
    have h1 := hsum s.x (candidate a s.x (dirAt L a s) t)
    have h2 : ∑ i, (gradient a s.x i * (candidate a s.x (dirAt L a s) t i - s.x i) +
        1 / 2 * ((candidate a s.x (dirAt L a s) t i - s.x i) * (h i * (candidate a s.x (dirAt L a s) t i - s.x i)))) ≤ 0 := by
      refine Finset.sum_nonpos fun i _ => ?_
      obtain ⟨δ, e, h3, -, -⟩ := hchange s hb t ht0 ht1 i
      rw [e, add_sub_cancel_left]
      have : 0 ≤ h i * (|δ| * |dirAt L a s i|) := mul_nonneg (hh i).le (mul_nonneg (abs_nonneg _) (abs_nonneg _))
      linarith
    linarith
  -- a rejected step leaves a coordinate on its limit
  have hreject : ∀ s : State n ℝ, InBox a.lower a.upper s.x → dirAt L a s ⬝ᵥ gradient a s.x < 0 → ∀ t, 0 < t → t ≤ 1 →
      (qp a.H a.g (candidate a s.x (dirAt L a s) t) - qp a.H a.g s.x) / (t * (dirAt L a s ⬝ᵥ gradient a s.x)) < c.armijo →
      ∃ i, s.x i ≠ xs i ∧ candidate a s.x (dirAt L a s) (t * c.stepFactor) i = xs i := by
    intro s hb hsl t ht0 ht1 hlt
    rw [div_lt_iff_of_neg (mul_neg_of_pos_of_neg ht0 hsl), hsum] at hlt
    have hex : ∃ i ∈ (Finset.univ : Finset (Fin n)), c.armijo * (t * (dirAt L a s i * gradient a s.x i)) <
        gradient a s.x i * (candidate a s.x (dirAt L a s) t i - s.x i) +
        1 / 2 * ((candidate a s.x (dirAt L a s) t i - s.x i) * (h i * (candidate a s.x (dirAt L a s) t i - s.x i))) := by
      refine Finset.exists_lt_of_sum_lt ?_
      rw [← Finset.mul_sum, ← Finset.mul_sum]
      exact hlt
    obtain ⟨i, -, hi⟩ := hex
    have hne : s.x i ≠ xs i := by
      intro he
      rw [hfix s hb t i he, hkeep s hb i he, he] at hi
      simp at hi
    refine ⟨i, hne, ?_⟩
    have hd := (hdir s hb i).resolve_left (fun hc => hne hc.2.symm)
    obtain ⟨δ, e, h3, h4, h5⟩ := hchange s hb t ht0.le ht1 i
    have hft0 : 0 ≤ t * c.stepFactor := mul_nonneg ht0.le hf0.le
    have hft1 : t * c.stepFactor ≤ 1 := by nlinarith
    rw [e, add_sub_cancel_left, hd.2] at hi
    rw [hd.2] at h3
    have hd0 : 0 < |dirAt L a s i| := by
      rw [abs_pos]
      intro h0
      rw [h0] at hi h4
      rw [abs_zero, mul_zero] at h4
      rw [abs_nonpos_iff.1 h4] at hi
      simp at hi
    -- the clipped length is less than `stepFactor * t * |d|`
    have hlen : |δ| < c.stepFactor * t * |dirAt L a s i| := by
      have hsq : dirAt L a s i * -(h i * dirAt L a s i) = -(h i * (|dirAt L a s i| * |dirAt L a s i|)) := by
        rw [abs_mul_abs_self]; ring
      rw [hsq] at hi
      have h6 : h i * |dirAt L a s i| * |δ| < h i * |dirAt L a s i| * (2 * c.armijo * t * |dirAt L a s i|) := by nlinarith
      have h7 := lt_of_mul_lt_mul_left h6 (mul_nonneg (hh i).le hd0.le)
      have h8 : 2 * c.armijo * (t * |dirAt L a s i|) ≤ c.stepFactor * (t * |dirAt L a s i|) :=
        mul_le_mul_of_nonneg_right harm (mul_nonneg ht0.le hd0.le)
      nlinarith
    have hc1 : s.x i + δ = max (min (s.x i + t * dirAt L a s i) (a.upper i)) (a.lower i) := by rw [← e, hcandi]
    rw [hcandi, coord_shorter (hb i) hft0 (by nlinarith) ht1 hc1 (by rw [mul_comm t]; exact hlen), hd.1, add_sub_cancel, ← hxs]
  -- what the line search returns
  have hlsr : ∀ (s : State n ℝ), InBox a.lower a.upper s.x → dirAt L a s ⬝ᵥ gradient a s.x < 0 → s.obj = qp a.H a.g s.x →
      s.x ≠ xs → ∀ ls, lineSearch c a s.x (dirAt L a s) s.obj (dirAt L a s ⬝ᵥ gradient a s.x) s.retval = some ls →
      InBox a.lower a.upper ls.xc ∧ ls.objc = qp a.H a.g ls.xc ∧ ls.objc ≤ s.obj ∧
        doneCount xs s.x < doneCount xs ls.xc := by
    intro s hb hsl ho hne ls hls
    have hfull : candidate a s.x (dirAt L a s) 1 = xs := by
      funext i
      by_cases hi : s.x i = xs i
      · exact hfix s hb 1 i hi
      · have hd := (hdir s hb i).resolve_left (fun hc => hi hc.2.symm)
        rw [hcandi, hd.1, one_mul, add_sub_cancel, ← hxs]
    have key : (0 < ls.step ∧ ls.step ≤ 1) ∧ ls.xc = candidate a s.x (dirAt L a s) ls.step ∧ ls.objc = qp a.H a.g ls.xc ∧
        ∃ i, s.x i ≠ xs i ∧ ls.xc i = xs i := by
      refine loopM_invariant (fun z => (0 < z.step ∧ z.step ≤ 1) ∧ z.xc = candidate a s.x (dirAt L a s) z.step ∧
          z.objc = qp a.H a.g z.xc ∧ ∃ i, s.x i ≠ xs i ∧ z.xc i = xs i)
        (fun z => (0 < z.step ∧ z.step ≤ 1) ∧ z.xc = candidate a s.x (dirAt L a s) z.step ∧
          z.objc = qp a.H a.g z.xc ∧ ∃ i, s.x i ≠ xs i ∧ z.xc i = xs i) ?_ ?_ ?_ hls
      · intro z z' ⟨⟨h1, h1'⟩, h2, h3, h4⟩ hz
        unfold lsStep at hz
        split at hz
        · rename_i hrej
          rw [ltb_real, h3, h2, ho] at hrej
          have h5 := hreject s hb hsl z.step h1 h1' hrej
          dsimp only at hz
          split at hz
          · cases hz
          · cases hz
            exact ⟨⟨mul_pos h1 hf0, by nlinarith⟩, rfl, objective_eq _ _ _, h5⟩
        · cases hz
      · intro z z' ⟨⟨h1, h1'⟩, h2, h3, h4⟩ hz
        unfold lsStep at hz
        split at hz
        · rename_i hrej
          rw [ltb_real, h3, h2, ho] at hrej
          have h5 := hreject s hb hsl z.step h1 h1' hrej
          dsimp only at hz
          split at hz
          · cases hz
            exact ⟨⟨mul_pos h1 hf0, by nlinarith⟩, rfl, objective_eq _ _ _, h5⟩
          · cases hz
        · cases hz
          exact ⟨⟨h1, h1'⟩, h2, h3, h4⟩
      · obtain ⟨k, hk⟩ : ∃ k, s.x k ≠ xs k := by
          by_contra hcon; push Not at hcon; exact hne (funext hcon)
        exact ⟨⟨one_pos, le_rfl⟩, rfl, objective_eq _ _ _, k, hk, congrFun hfull k⟩
    obtain ⟨⟨h1, h1'⟩, h2, h3, k, h4, h5⟩ := key
    refine ⟨by rw [h2, candidate]; exact clampBox_inBox hlu _, h3, ?_, ?_⟩
    · rw [h3, h2, ho]; exact hdesc s hb _ h1.le h1'
    · exact doneCount_lt (fun i hi => by rw [h2]; exact hfix s hb _ i hi) h4 h5
  -- iterates that are not optimal
  have hnot : ∀ s : State n ℝ, ltb (freeGradNorm (gradient a s.x) (freeAt a s)) (c.gradThre * c.gradThre) = false →
      s.x ≠ xs ∧ dirAt L a s ⬝ᵥ gradient a s.x < 0 := by
    intro s hg
    rw [ltb_real_false] at hg
    have hpos := lt_of_lt_of_le (mul_self_pos.2 hthre) hg
    refine ⟨fun hx1 => ?_, (dir_slope hL hH s).2 hpos⟩
    rw [hfgn] at hpos
    refine absurd hpos (not_lt.2 (Finset.sum_nonpos fun i _ => ?_))
    split
    · exact le_rfl
    · rename_i hf
      rw [hflag] at hf
      rw [coord_free (hh i) (hxs i) hf (by rw [hx1]) (hlu i), mul_zero]
  have hlt : ∀ x : Vec n ℝ, x ≠ xs → doneCount xs x < n := by
    intro x hx
    obtain ⟨k, hk⟩ : ∃ k, x k ≠ xs k := by
      by_contra hcon; push Not at hcon; exact hx (funext hcon)
    exact (doneCount_lt (x' := xs) (fun _ _ => rfl) hk rfl).trans_le (doneCount_le _ _)
  obtain ⟨s, hs, rfl⟩ := solve_rule
    (fun s : State n ℝ => Inv8 L a s ∧ InBox a.lower a.upper s.x ∧ s.obj = qp a.H a.g s.x ∧ s.iter ≤ doneCount xs s.x + 1 ∧
      (1 < s.iter → s.obj ≤ s.oldObj))
    (fun s => s.iter ≤ n + 1 ∧ s.retval ∈ ([1, 4, 5, 6] : List ℤ) ∧ (s.retval = 1 → c.maxIter ≤ n) ∧
      (s.retval = 4 → 0 < c.relImproveThre))
    ⟨inv8_init, clampBox_inBox hlu _, objective_eq _ _ _, Nat.le_add_left 1 _, fun h => absurd h (lt_irrefl 1)⟩
    (fun s s' ⟨h8, hb, ho, hi, hd⟩ hz => by
      have h8' := inv8_step h8 hz
      have hout := mainStep_out L c a s
      rw [hz] at hout
      cases hout with
      | next _ hok hg d hd _ ls hl =>
        rw [step_searchDir h8 hok hd, dot_real] at hl
        obtain ⟨hne, hsl⟩ := hnot s hg
        obtain ⟨h1, h2, h3, h4⟩ := hlsr s hb hsl ho hne ls hl
        exact ⟨h8', h1, h2, (by show s.iter + 1 ≤ doneCount xs ls.xc + 1; omega), fun _ => h3⟩)
    (fun s s' ⟨h8, hb, ho, hi, hdd⟩ hz => by
      have hle := doneCount_le xs s.x
      have hout := mainStep_out L c a s
      rw [hz] at hout
      cases hout with
      | rel h1 h2 =>
        refine ⟨by dsimp only; omega, by simp, fun h => by simp at h, fun _ => ?_⟩
        rw [ltb_real, abs_real] at h2
        by_contra h0
        have := mul_nonpos_of_nonpos_of_nonneg (not_lt.1 h0) (abs_nonneg s.oldObj)
        have := hdd h1
        linarith
      | all h1 => exact ⟨by dsimp only; omega, by simp, fun h => by simp at h, fun h => by simp at h⟩
      | fail _ _ hok => exact absurd hok (hnofail _)
      | grad => exact ⟨by dsimp only; omega, by simp, fun h => by simp at h, fun h => by simp at h⟩
      | ascent _ hok hg d hd h1 =>
        obtain ⟨hne, hsl⟩ := hnot s hg
        rw [step_searchDir h8 hok hd] at h1
        simp only [dot_real, ltb_real, lit_real] at h1
        norm_num at h1
        linarith
      | maxIter _ hok hg d hd _ ls hl hmi =>
        obtain ⟨hne, hsl⟩ := hnot s hg
        have := hlt s.x hne
        refine ⟨by dsimp only; omega, by simp, fun _ => ?_, fun h => by simp at h⟩
        rw [← hmi]; exact_mod_cast (by omega : s.iter ≤ n)) hr
  exact hs

/-- The hypotheses of `C91_finite` are met by a program whose first coordinate is clipped to a hundredth of its full step (so that
the line search backtracks), with the default configuration; the run returns after at most three iterations. -/
example (o : Obj 2 ℝ) : ∃ r, solve0 exactLLT Config.default o (Matrix.diagonal ![1, 2]) ![-100, -2] ![0, 0] ![1, 10] = .ok r ∧
    r.iter ≤ 3 ∧ r.obj.retval ∈ ([4, 5, 6] : List ℤ) := by
  obtain ⟨r, h1, -⟩ := C03_terminates_real (L := exactLLT) (c := Config.default) (o := o)
    (a := { H := Matrix.diagonal ![1, 2], g := ![-100, -2], lower := ![0, 0], upper := ![1, 10], init := fun _ => 0 })
    (by norm_num [Config.default]) (by norm_num [Config.default]) (by norm_num [Config.default])
  obtain ⟨h2, h3, h4, -⟩ := C91_finite (h := ![1, 2]) exactLLT_exact rfl (by intro i; fin_cases i <;> norm_num)
    (by intro i; fin_cases i <;> norm_num) (by norm_num [Config.default]) (by norm_num [Config.default])
    (by norm_num [Config.default]) (by norm_num [Config.default]) h1
  refine ⟨r, h1, h2, ?_⟩
  have h5 : r.obj.retval ≠ 1 := fun h => by have := h4 h; norm_num [Config.default] at this
  simpa [h5] using h3

end Nmpc.BoxQP
