import Verif.FMPC.Generic
import Verif.DDP.Generic
import Mathlib.Tactic.Linarith
import Mathlib.Tactic.Positivity
import Mathlib.Tactic.NormNum
import Mathlib.Tactic.FieldSimp

/-!
# Step lengths, positivity, line search and barrier parameter of FMPC (C28, C34, C36)
-/

set_option linter.unusedSectionVars false

namespace Nmpc.FMPC

open DDP (FDeriv LDeriv VDeriv timeAt)

/-! ## The backtracking loop -/

section Generic
variable {α : Type} [Add α] [Sub α] [Mul α] [Div α] [Neg α] [Zero α] [One α] [FOps α]

/-- `alpha_s *= 0.5`. -/
def halve (a : α) : α := a * lit (1 / 2)

theorem lsLoop_spec (accept : α → Bool) (K : ℕ) (a : α) (hK : ltb (halve^[K] a) (lit (1 / 10 ^ 10)) = true) :
    ∃ k ≤ K, loopM (lsStep accept) a = some (halve^[k] a) ∧
      (ltb (halve^[k] a) (lit (1 / 10 ^ 10)) = true ∨ accept (halve^[k] a) = true) ∧
      ∀ j < k, ltb (halve^[j] a) (lit (1 / 10 ^ 10)) = false ∧ accept (halve^[j] a) = false := by
  induction K generalizing a with
  | zero =>
    refine ⟨0, le_refl _, loopM_inr ?_, .inl hK, by intro j hj; omega⟩
    unfold lsStep
    exact if_pos hK
  | succ K ih =>
    by_cases h1 : ltb a (lit (1 / 10 ^ 10)) = true
    · exact ⟨0, by omega, loopM_inr (by unfold lsStep; exact if_pos h1), .inl h1, by intro j hj; omega⟩
    by_cases h2 : accept a = true
    · exact ⟨0, by omega, loopM_inr (by unfold lsStep; rw [if_neg h1, if_pos h2]; rfl), .inr h2, by intro j hj; omega⟩
    obtain ⟨k, hk, h3, h4, h5⟩ := ih (halve a) (by rw [← Function.iterate_succ_apply]; exact hK)
    refine ⟨k + 1, by omega, ?_, ?_, ?_⟩
    · rw [loopM_inl (s' := halve a) (by unfold lsStep; rw [if_neg h1, if_neg h2]; rfl), h3, Function.iterate_succ_apply]
    · rw [Function.iterate_succ_apply]; exact h4
    · intro j hj
      cases j with
      | zero => exact ⟨by simpa using h1, by simpa using h2⟩
      | succ j => rw [Function.iterate_succ_apply]; exact h5 j (by omega)

/-- Arithmetics in which a number in (0,1] is below 1e-10 after at most 34 halvings. -/
def HalvingLaw (α : Type) [Mul α] [Zero α] [One α] [FOps α] : Prop :=
  ∀ a : α, ltb 0 a = true → leb a 1 = true → ltb ((fun a => a * lit (1 / 2))^[34] a) (lit (1 / 10 ^ 10)) = true

section Solve
variable {n : ℕ} {md pd : α → ℕ} {L : GainSolver α} {P : Callbacks n md pd} {dt : α} {cfg : Config α} {o : Obj n α}
  {t0 : α} {sc : Scratch n (fun i => md (timeAt t0 dt i)) (fun i => pd (timeAt t0 dt i)) α} {x0 : Vec n α}
  {init : VarL n α}

theorem updateVariables_ne_diverge {m p : ℕ → ℕ} {N : ℕ} {S : Stages n m p α} (hH : HalvingLaw α) (w : Solver n m p α) :
    updateVariables N cfg S x0 w ≠ .diverge := by
  unfold updateVariables
  dsimp only
  split
  · rename_i h
    have h' : ltb 0 (alphaMax N w.var.s w.delta.s) = true ∧ leb (alphaMax N w.var.s w.delta.s) 1 = true := by
      unfold alphaOk at h
      simp only [Bool.and_eq_true] at h
      exact h.1.1
    have := lineSearch_out (N := N) (cfg := cfg) (S := S) (x0 := x0) w (alphaMax N w.var.s w.delta.s)
    generalize lineSearch N cfg S x0 w (alphaMax N w.var.s w.delta.s) = r at this
    cases this with
    | diverge _ mt hm hb =>
      obtain ⟨k, _, h3, _⟩ := lsLoop_spec (armijo N S x0 { w with merit := mt }) 34 _ (hH _ h'.1 h'.2)
      rw [hb] at h3
      cases h3
    | _ => simp [Res.map]
  · simp

theorem procOnce_ne_diverge {m p : ℕ → ℕ} {N : ℕ} {S : Stages n m p α} (hH : HalvingLaw α) (iter : ℕ)
    (w : Solver n m p α) : procOnce L N cfg S x0 iter w ≠ .diverge := by
  have := procOnce_out (L := L) (N := N) (cfg := cfg) (S := S) (x0 := x0) iter w
  generalize procOnce L N cfg S x0 iter w = q at this
  cases this with
  | update e he hk w2 hb w3 hf r hr =>
    have h1 := updateVariables_ne_diverge (N := N) (cfg := cfg) (S := S) (x0 := x0) hH w3
    rw [hr] at h1
    cases r <;> first | exact absurd rfl h1 | simp [Res.map]
  | _ => simp

/-- **C36**, termination: in every arithmetic in which halving reaches 1e-10 within 34 steps, `solve` terminates for
every problem, merit function and configuration. -/
theorem C36_solve_terminates (hH : HalvingLaw α) : (solve L P dt cfg o t0 sc x0 init).2 ≠ .diverge := by
  have := solve_out (L := L) (P := P) (dt := dt) (cfg := cfg) (o := o) (t0 := t0) (sc := sc) (x0 := x0) (init := init)
  generalize solve L P dt cfg o t0 sc x0 init = r at this
  cases this with
  | bad v hv hc o' e he hr =>
    rcases hr with ⟨rfl, h⟩ | ⟨rfl, h⟩
    · exfalso
      unfold runSolver at h
      have h1 : optLoop L v.us.length cfg (stagesOf P t0 dt v.us.length) x0 cfg.maxIter.toNat 1 .uninitialized
          (initSolver v (startEps cfg o) sc) ≠ .diverge :=
        optLoop_ne (fun _ => True) trivial (fun _ _ _ _ _ => trivial) _ (by simp)
          (fun it w _ => procOnce_ne_diverge hH it w)
      generalize optLoop L v.us.length cfg (stagesOf P t0 dt v.us.length) x0 cfg.maxIter.toNat 1 .uninitialized
          (initSolver v (startEps cfg o) sc) = q at h h1
      cases q with
      | ok q => dsimp only [Res.bind_ok] at h; split at h <;> cases h
      | diverge => exact absurd rfl h1
      | _ => cases h
    · simp
  | _ => simp

/-- The barrier parameter after an iteration is not outside of the bounds. -/
theorem C34_generic (hlo : ltb (lit (1 / 10 ^ 8) : α) (lit (1 / 10 ^ 8)) = false)
    (hhi : ltb (lit (10 ^ 6) : α) (lit (10 ^ 6)) = false) (hlh : ltb (lit (10 ^ 6) : α) (lit (1 / 10 ^ 8)) = false)
    (hu : cfg.updateBarrierEps = true) (hm : 0 < cfg.maxIter) {o' : Obj n α} {st : Status}
    (h : solve L P dt cfg o t0 sc x0 init = (o', .ok st)) :
    ltb o'.eps (lit (1 / 10 ^ 8)) = false ∧ ltb (lit (10 ^ 6)) o'.eps = false := by
  obtain ⟨v, w, hv, hc, hr, rfl⟩ := solve_ok h
  obtain ⟨st', ho, hst, _⟩ := runSolver_ok hr
  dsimp only
  have key : ∀ it (w1 w2 : Solver n _ _ α) st1, procOnce L v.us.length cfg (stagesOf P t0 dt v.us.length) x0 it w1 =
      .ok (w2, st1) → ltb w2.eps (lit (1 / 10 ^ 8)) = false ∧ ltb (lit (10 ^ 6)) w2.eps = false := by
    intro it w1 w2 st1 hp
    obtain ⟨e, he, h1, _⟩ := procOnce_frame hp
    rw [h1]
    rcases he with ⟨_, he⟩ | ⟨he, _⟩
    · unfold updateEps at he
      split at he
      · cases he
      · cases he
        unfold fclamp
        split
        · exact ⟨hlo, hlh⟩
        · split
          · exact ⟨hlh, hhi⟩
          · rename_i g1 g2; exact ⟨by simpa using g1, by simpa using g2⟩
    · rw [hu] at he; cases he
  refine optLoop_rule (fun it st w => it = 1 ∨ (ltb w.eps (lit (1 / 10 ^ 8)) = false ∧ ltb (lit (10 ^ 6)) w.eps = false))
    (fun st w => ltb w.eps (lit (1 / 10 ^ 8)) = false ∧ ltb (lit (10 ^ 6)) w.eps = false) (.inl rfl) ?_ ?_ ho
  · intro it st w w' st' _ _ _ hp
    split
    · exact .inr (key _ _ _ _ hp)
    · exact key _ _ _ _ hp
  · intro st w h1
    rcases h1 with h1 | h1
    · omega
    · exact h1

end Solve
end Generic

/-! ## Exact arithmetic -/

theorem halve_real (a : ℝ) (k : ℕ) : halve^[k] a = a / 2 ^ k := by
  induction k with
  | zero => simp
  | succ k ih => rw [Function.iterate_succ_apply', ih]; unfold halve; rw [lit_real, pow_succ]; push_cast; field_simp

theorem halvingLaw_real : HalvingLaw ℝ := by
  intro a h0 h1
  have := halve_real a 34
  unfold halve at this
  rw [this]
  simp only [ltb_real, leb_real, lit_real] at h0 h1 ⊢
  push_cast
  rw [div_lt_div_iff₀ (by positivity) (by positivity)]
  nlinarith

/-- **C36.**  For every test `accept` of a step length (so for every merit function, also one that returns NaN) and every
starting step in (0,1] the backtracking loop ends after `k ≤ 34` halvings; the step is `aMax / 2^k` in (0, aMax]; it is
accepted or below 1e-10; all earlier steps were at least 1e-10 and were evaluated and rejected.  At most 34 evaluations of
the merit function are made. -/
theorem C36_line_search (accept : ℝ → Bool) {aMax : ℝ} (h0 : 0 < aMax) (h1 : aMax ≤ 1) :
    ∃ k : ℕ, k ≤ 34 ∧ loopM (lsStep accept) aMax = some (aMax / 2 ^ k) ∧ 0 < aMax / 2 ^ k ∧ aMax / 2 ^ k ≤ aMax ∧
      (aMax / 2 ^ k < 1 / 10 ^ 10 ∨ accept (aMax / 2 ^ k) = true) ∧
      (∀ j < k, 1 / 10 ^ 10 ≤ aMax / 2 ^ j ∧ accept (aMax / 2 ^ j) = false) ∧
      (1 / 10 ^ 10 ≤ aMax / 2 ^ k → k + 1 ≤ 34) := by
  obtain ⟨k, hk, h2, h3, h4⟩ := lsLoop_spec accept 34 aMax (halvingLaw_real aMax (by simpa) (by simpa))
  rw [halve_real] at h2 h3
  simp only [halve_real] at h4
  refine ⟨k, hk, h2, by positivity, ?_, ?_, ?_, ?_⟩
  · exact div_le_self h0.le (one_le_pow₀ (by norm_num))
  · rcases h3 with h3 | h3
    · left; simpa using h3
    · exact .inr h3
  · intro j hj
    have := h4 j hj
    exact ⟨by simpa using this.1, this.2⟩
  · intro h5
    by_contra h6
    have : k = 34 := by omega
    subst this
    have : aMax / 2 ^ 34 ≤ 1 / 2 ^ 34 := div_le_div_of_nonneg_right h1 (by positivity)
    norm_num at this h5
    linarith

/-- The test of the code: with line search the chosen step satisfies the Armijo condition or is below 1e-10, and lies in
(0, alpha_s_max]; without it is `alpha_s_max`. -/
theorem C36_step {n : ℕ} {m p : ℕ → ℕ} {N : ℕ} {cfg : Config ℝ} {S : Stages n m p ℝ} {x0 : Vec n ℝ}
    {w w' : Solver n m p ℝ} {aMax a : ℝ} (h0 : 0 < aMax) (h1 : aMax ≤ 1)
    (h : lineSearch N cfg S x0 w aMax = .ok (a, w')) :
    0 < a ∧ a ≤ aMax ∧ (cfg.enableLineSearch = false → a = aMax) ∧
    (cfg.enableLineSearch = true → a < 1 / 10 ^ 10 ∨
      calcMerit N S w.eps x0 w'.merit.scale (lsVar w.var w.delta a) < w'.merit.func + 1 / 1000 * a * w'.merit.deriv) := by
  have := lineSearch_out (N := N) (cfg := cfg) (S := S) (x0 := x0) w aMax
  rw [h] at this
  generalize hx : (Res.ok (a, w') : Res (ℝ × Solver n m p ℝ)) = x at this
  cases this with
  | off hh => cases hx; exact ⟨h0, le_refl _, fun _ => rfl, fun hc => by rw [hh] at hc; cases hc⟩
  | on hh mt hm b hb =>
    cases hx
    obtain ⟨k, hk, h2, h3, h4, h5, h6, h7⟩ := C36_line_search (armijo N S x0 { w with merit := mt }) h0 h1
    rw [hb] at h2
    cases h2
    refine ⟨h3, h4, fun hc => (by rw [hh] at hc; cases hc), fun _ => ?_⟩
    rcases h5 with h5 | h5
    · exact .inl h5
    · right
      unfold armijo at h5
      rw [ltb_real] at h5
      simpa using h5
  | ub => cases hx
  | diverge => cases hx

/-! ### Fraction to boundary -/

/-- Inner loop of the fraction-to-boundary rule. -/
theorem fraction_inner {k : ℕ} (v dv : Vec k ℝ) (l : List (Fin k)) (a : ℝ) (ha : 0 < a) (hv : ∀ j, 0 < v j) :
    let r := l.foldl (fun a j => if ltb (dv j) 0 then fmin a ((-1) * lit (995 / 1000) * v j / dv j) else a) a
    0 < r ∧ r ≤ a ∧ ∀ j ∈ l, dv j < 0 → r ≤ 995 / 1000 * v j / (- dv j) := by
  induction l generalizing a with
  | nil => exact ⟨ha, le_refl _, by simp⟩
  | cons j l ih =>
    dsimp only at ih ⊢
    rw [List.foldl_cons]
    by_cases h : dv j < 0
    · have hq : (-1 : ℝ) * lit (995 / 1000) * v j / dv j = 995 / 1000 * v j / (- dv j) := by
        rw [lit_real]; push_cast
        have : dv j ≠ 0 := ne_of_lt h
        field_simp
      have hpos : 0 < 995 / 1000 * v j / (- dv j) := by
        have := hv j
        have : 0 < - dv j := by linarith
        positivity
      rw [if_pos (by simpa using h), hq, fmin_real]
      obtain ⟨h1, h2, h3⟩ := ih (min a (995 / 1000 * v j / (- dv j))) (lt_min ha hpos)
      refine ⟨h1, h2.trans (min_le_left _ _), ?_⟩
      intro j' hj' hd
      rcases List.mem_cons.1 hj' with rfl | hj'
      · exact h2.trans (min_le_right _ _)
      · exact h3 j' hj' hd
    · rw [if_neg (by simpa using h)]
      obtain ⟨h1, h2, h3⟩ := ih a ha
      refine ⟨h1, h2, ?_⟩
      intro j' hj' hd
      rcases List.mem_cons.1 hj' with rfl | hj'
      · exact absurd hd h
      · exact h3 j' hj' hd

/-- The fraction-to-boundary rule keeps 0.5 percent of every decreasing positive component. -/
theorem alphaMax_spec {p : ℕ → ℕ} {N : ℕ} (v dv : (i : ℕ) → Vec (p i) ℝ) (hv : ∀ i < N, ∀ j, 0 < v i j) :
    0 < alphaMax N v dv ∧ alphaMax N v dv ≤ 1 ∧
      ∀ i < N, ∀ j, dv i j < 0 → alphaMax N v dv ≤ 995 / 1000 * v i j / (- dv i j) := by
  have := forUp_invariant (n := N)
    (body := fun i a => (List.finRange (p i)).foldl (fun a j =>
      if ltb (dv i j) 0 then fmin a ((-1) * lit (995 / 1000) * v i j / dv i j) else a) a) (s := (1 : ℝ))
    (fun k a => 0 < a ∧ a ≤ 1 ∧ ∀ i < k, ∀ j, dv i j < 0 → a ≤ 995 / 1000 * v i j / (- dv i j))
    ⟨one_pos, le_refl _, by intro i hi; omega⟩ (by
      intro i a hi ⟨h1, h2, h3⟩
      obtain ⟨g1, g2, g3⟩ := fraction_inner (v i) (dv i) (List.finRange (p i)) a h1 (hv i hi)
      refine ⟨g1, g2.trans h2, ?_⟩
      intro i' hi' j hj
      rcases Nat.lt_succ_iff_lt_or_eq.1 hi' with h | rfl
      · exact g2.trans (h3 i' h j hj)
      · exact g3 j (List.mem_finRange j) hj)
  exact this

theorem step_pos {x dx a aMax : ℝ} (hx : 0 < x) (h0 : 0 < a) (h1 : a ≤ aMax)
    (h2 : dx < 0 → aMax ≤ 995 / 1000 * x / (- dx)) : 0 < x + a * dx := by
  by_cases hd : dx < 0
  · have h3 := h1.trans (h2 hd)
    have h4 : 0 < - dx := by linarith
    rw [le_div_iff₀ h4] at h3
    linarith
  · have : 0 ≤ a * dx := mul_nonneg h0.le (by linarith)
    linarith

theorem repair_of_pos {k : ℕ} (v : Vec k ℝ) (h : ∀ j, 0 < v j) : repair v = v := by
  unfold repair
  rw [if_neg]
  simp [List.any_eq_true]
  intro j
  exact (h j).le

/-- All slacks and multipliers of the steps below the horizon are positive. -/
def Var.Pos {n : ℕ} {m p : ℕ → ℕ} (N : ℕ) (v : Var n m p ℝ) : Prop :=
  (∀ i < N, ∀ j, 0 < v.s i j) ∧ (∀ i < N, ∀ j, 0 < v.nu i j)

/-- One update: never rejected, positivity is kept, step lengths are in (0,1]. -/
theorem updateVariables_pos {n : ℕ} {m p : ℕ → ℕ} {N : ℕ} {cfg : Config ℝ} {S : Stages n m p ℝ} {x0 : Vec n ℝ}
    {w : Solver n m p ℝ} (hw : w.var.Pos N) {b : Bool} {w' : Solver n m p ℝ}
    (h : updateVariables N cfg S x0 w = .ok (b, w')) :
    b = true ∧ w'.var.Pos N ∧ ∃ aS aNu : ℝ, 0 < aS ∧ aS ≤ 1 ∧ 0 < aNu ∧ aNu ≤ 1 ∧
      (∀ i < N, w'.var.s i = w.var.s i + aS • w.delta.s i ∧ w'.var.nu i = w.var.nu i + aNu • w.delta.nu i ∧
        w'.var.u i = w.var.u i + aS • w.delta.u i) ∧
      (∀ i ≤ N, w'.var.x i = w.var.x i + aS • w.delta.x i ∧ w'.var.lam i = w.var.lam i + aNu • w.delta.lam i) ∧
      (∀ i < N, ∀ j, 5 / 1000 * w.var.s i j ≤ w'.var.s i j ∧ 5 / 1000 * w.var.nu i j ≤ w'.var.nu i j) := by
  obtain ⟨s1, s2, s3⟩ := alphaMax_spec w.var.s w.delta.s hw.1
  obtain ⟨n1, n2, n3⟩ := alphaMax_spec w.var.nu w.delta.nu hw.2
  have := updateVariables_out (N := N) (cfg := cfg) (S := S) (x0 := x0) w
  rw [h] at this
  generalize hx : (Res.ok (b, w') : Res (Bool × Solver n m p ℝ)) = x at this
  cases this with
  | reject hh =>
    exfalso
    have : alphaOk (alphaMax N w.var.s w.delta.s) (alphaMax N w.var.nu w.delta.nu) = true := by
      unfold alphaOk
      simp only [Bool.and_eq_true, ltb_real, leb_real]
      exact ⟨⟨⟨s1, s2⟩, n1⟩, n2⟩
    rw [this] at hh
    cases hh
  | step hh a mt hl =>
    cases hx
    obtain ⟨a0, a1, _⟩ := C36_step s1 s2 hl
    have ps : ∀ i < N, ∀ j, 0 < (w.var.s i + smulv a (w.delta.s i)) j := fun i hi j =>
      step_pos (hw.1 i hi j) a0 a1 (s3 i hi j)
    have pn : ∀ i < N, ∀ j, 0 < (w.var.nu i + smulv (alphaMax N w.var.nu w.delta.nu) (w.delta.nu i)) j := fun i hi j =>
      step_pos (hw.2 i hi j) n1 (le_refl _) (n3 i hi j)
    have es : ∀ i < N, (applyStep w.var w.delta a (alphaMax N w.var.nu w.delta.nu)).s i = w.var.s i + a • w.delta.s i :=
      fun i hi => repair_of_pos _ (ps i hi)
    have en : ∀ i < N, (applyStep w.var w.delta a (alphaMax N w.var.nu w.delta.nu)).nu i =
        w.var.nu i + alphaMax N w.var.nu w.delta.nu • w.delta.nu i := fun i hi => repair_of_pos _ (pn i hi)
    refine ⟨rfl, ⟨?_, ?_⟩, a, alphaMax N w.var.nu w.delta.nu, a0, a1.trans s2, n1, n2, ?_, ?_, ?_⟩
    · intro i hi j; rw [es i hi]; exact ps i hi j
    · intro i hi j; rw [en i hi]; exact pn i hi j
    · intro i hi; exact ⟨es i hi, en i hi, rfl⟩
    · intro i hi; exact ⟨rfl, rfl⟩
    · intro i hi j
      dsimp only
      rw [es i hi, en i hi]
      have bound : ∀ {x dx b bMax : ℝ}, 0 < x → 0 < b → b ≤ bMax → (dx < 0 → bMax ≤ 995 / 1000 * x / (- dx)) →
          5 / 1000 * x ≤ x + b * dx := by
        intro x dx b bMax hx hb0 hb1 hb2
        by_cases hd : dx < 0
        · have h3 := hb1.trans (hb2 hd)
          have h4 : 0 < - dx := by linarith
          rw [le_div_iff₀ h4] at h3
          linarith
        · have : 0 ≤ b * dx := mul_nonneg hb0.le (by linarith)
          linarith
      exact ⟨bound (hw.1 i hi j) a0 a1 (s3 i hi j), bound (hw.2 i hi j) n1 (le_refl _) (n3 i hi j)⟩
  | ub => cases hx
  | diverge => cases hx

theorem procOnce_pos {n : ℕ} {m p : ℕ → ℕ} {L : GainSolver ℝ} {N : ℕ} {cfg : Config ℝ} {S : Stages n m p ℝ}
    {x0 : Vec n ℝ} {iter : ℕ} {w w' : Solver n m p ℝ} {st : Status} (hw : w.var.Pos N)
    (h : procOnce L N cfg S x0 iter w = .ok (w', st)) : w'.var.Pos N ∧ st ≠ .errorInUpdate := by
  by_cases hc : st = .iterationContinued ∨ st = .errorInUpdate
  · have := procOnce_out (L := L) (N := N) (cfg := cfg) (S := S) (x0 := x0) iter w
    rw [h] at this
    generalize hx : (Res.ok (w', st) : Res (Solver n m p ℝ × Status)) = x at this
    cases this with
    | ubEps => cases hx
    | succeeded => cases hx; simp at hc
    | backward => cases hx; simp at hc
    | forward => cases hx; simp at hc
    | update e he hk w2 hb w3 hf r hr =>
      cases r with
      | ok r =>
        obtain ⟨b, w4⟩ := r
        cases hx
        have h1 := (backwardPass_frame (L := L) (N := N) (cfg := cfg) (S := S) (traced N x0 iter (prepared N S w e))).1
        rw [hb] at h1
        have h2 := (forwardPass_frame (N := N) (cfg := cfg) (x0 := x0) w2).1
        rw [hf] at h2
        have hw3 : w3.var.Pos N := by
          dsimp only at h1 h2
          rw [h2, h1]; exact hw
        obtain ⟨rfl, g2, _⟩ := updateVariables_pos hw3 hr
        exact ⟨g2, by simp⟩
      | _ => cases hx
  · rw [not_or] at hc
    obtain ⟨e, he, _, _, hv, _⟩ := procOnce_frame h
    rw [hv hc.1]
    exact ⟨hw, hc.2⟩

section Solve
variable {n : ℕ} {md pd : ℝ → ℕ} {L : GainSolver ℝ} {P : Callbacks n md pd} {dt : ℝ} {cfg : Config ℝ} {o : Obj n ℝ}
  {t0 : ℝ} {sc : Scratch n (fun i => md (timeAt t0 dt i)) (fun i => pd (timeAt t0 dt i)) ℝ} {x0 : Vec n ℝ}
  {init : VarL n ℝ}

/-- All slacks and multipliers in the lists are positive. -/
def VarL.Pos (v : VarL n ℝ) : Prop := (∀ e ∈ v.ss, ∀ j, 0 < e.2 j) ∧ (∀ e ∈ v.nus, ∀ j, 0 < e.2 j)

theorem toVar_pos {v : VarL n ℝ} (hd : DimsOk md pd t0 dt v) (hs : v.ss.length = v.us.length)
    (hn : v.nus.length = v.us.length) (hp : v.Pos) :
    (v.toVar : Var n (fun i => md (timeAt t0 dt i)) (fun i => pd (timeAt t0 dt i)) ℝ).Pos v.us.length := by
  constructor
  · intro i hi j
    have h1 : i < v.ss.length := by omega
    have := DDP.inputAt_eq (m := fun i => pd (timeAt t0 dt i)) h1 (hd.2.1 i h1)
    exact hp.1 ⟨pd (timeAt t0 dt i), DDP.inputAt (m := fun i => pd (timeAt t0 dt i)) v.ss i⟩
      (this ▸ List.getElem_mem h1) j
  · intro i hi j
    have h1 : i < v.nus.length := by omega
    have := DDP.inputAt_eq (m := fun i => pd (timeAt t0 dt i)) h1 (hd.2.2 i h1)
    exact hp.2 ⟨pd (timeAt t0 dt i), DDP.inputAt (m := fun i => pd (timeAt t0 dt i)) v.nus i⟩
      (this ▸ List.getElem_mem h1) j

theorem complInit_pos (a : ℝ) : 0 < complInit a := by
  unfold complInit
  simp only [lit_real, fmax_real]
  have : (0 : ℝ) < max a ((1 / 100 : ℚ) : ℝ) := lt_of_lt_of_le (by norm_num) (le_max_right _ _)
  push_cast at this ⊢
  positivity

theorem initCompl_pos {k : ℕ} {v v' : VarL n ℝ} (h : initCompl P t0 dt k v = .ok v') :
    (∀ i (hi : i < v'.ss.length), i < k → ∀ j : Fin (v'.ss[i]).1, 0 < (v'.ss[i]).2 j) ∧
    (∀ i (hi : i < v'.nus.length), i < k → ∀ j : Fin (v'.nus[i]).1, 0 < (v'.nus[i]).2 j) := by
  induction k generalizing v' with
  | zero => exact ⟨by intros; omega, by intros; omega⟩
  | succ k ih =>
    unfold initCompl at h
    rcases initCompl_cases (P := P) (t0 := t0) (dt := dt) k v with h1 | ⟨v1, h1⟩
    · rw [h1] at h; cases h
    · rw [h1] at h
      obtain ⟨p1, p2⟩ := ih h1
      dsimp only [Res.bind_ok] at h
      split at h
      · split at h
        · split at h
          · cases h
            dsimp only
            constructor
            · intro i hi hik
              rw [List.length_set] at hi
              by_cases hk : i = k
              · subst hk; rw [List.getElem_set_self]; exact fun j => complInit_pos _
              · rw [List.getElem_set_ne (by omega)]; exact p1 i hi (by omega)
            · intro i hi hik
              rw [List.length_set] at hi
              by_cases hk : i = k
              · subst hk; rw [List.getElem_set_self]; exact fun j => complInit_pos _
              · rw [List.getElem_set_ne (by omega)]; exact p2 i hi (by omega)
          · cases h
        · cases h
      · cases h

theorem startVar_pos {v : VarL n ℝ} (hp : cfg.initComplementary = true ∨ init.Pos)
    (hv : startVar P dt cfg t0 init = .ok v) (hl : LengthsOk cfg.horizon v) : v.Pos := by
  unfold startVar at hv
  split at hv
  · obtain ⟨h1, h2⟩ := initCompl_pos hv
    obtain ⟨_, _, _, l4, l5⟩ := hl
    constructor
    · intro e he
      obtain ⟨i, hi, rfl⟩ := List.getElem_of_mem he
      exact h1 i hi (by omega)
    · intro e he
      obtain ⟨i, hi, rfl⟩ := List.getElem_of_mem he
      exact h2 i hi (by omega)
  · rename_i hc
    cases hv
    rcases hp with hp | hp
    · exact absurd hp hc
    · exact hp

/-- Invariants of the optimisation loop, lifted to `solve` (started from positive slacks and multipliers). -/
theorem solve_pos_start {v : VarL n ℝ} (hp : cfg.initComplementary = true ∨ init.Pos)
    (hv : startVar P dt cfg t0 init = .ok v) (hc : checkVariable md pd t0 dt cfg.horizon v = .ok ()) :
    (initSolver (m := fun i => md (timeAt t0 dt i)) (p := fun i => pd (timeAt t0 dt i)) v (startEps cfg o) sc).var.Pos
      v.us.length := by
  obtain ⟨hl, hd, _⟩ := (checkVariable_iff (md := md) (pd := pd) (t0 := t0) (dt := dt) (horizon := cfg.horizon) v).2.2.1 hc
  have := hl
  obtain ⟨l1, l2, l3, l4, l5⟩ := hl
  exact toVar_pos hd (by omega) (by omega) (startVar_pos hp hv this)

/-- **C28.**  If all slacks and multipliers of the initial variable are positive, or `init_complementary_variable` is set,
then in exact arithmetic all slacks and multipliers of `variable()` are positive after `solve` (after any number of
iterations, since `max_iter` is arbitrary) and the status is never `ErrorInUpdate`. -/
theorem C28_positive (hp : cfg.initComplementary = true ∨ init.Pos) {o' : Obj n ℝ} {st : Status}
    (h : solve L P dt cfg o t0 sc x0 init = (o', .ok st)) : o'.var.Pos ∧ st ≠ .errorInUpdate := by
  obtain ⟨v, w, hv, hc, hr, rfl⟩ := solve_ok h
  obtain ⟨st', ho, hst, _⟩ := runSolver_ok hr
  have h0 := solve_pos_start (o := o) (sc := sc) hp hv hc
  have key : w.var.Pos v.us.length ∧ st' ≠ .errorInUpdate := by
    refine optLoop_rule (fun _ st w => w.var.Pos v.us.length ∧ st ≠ .errorInUpdate)
      (fun st w => w.var.Pos v.us.length ∧ st ≠ .errorInUpdate) ⟨h0, by simp⟩ ?_ (fun _ _ h => h) ho
    intro it st w w' st' _ _ h1 hp
    have := procOnce_pos h1.1 hp
    split <;> exact this
  refine ⟨⟨?_, ?_⟩, ?_⟩
  · intro e he
    obtain ⟨i, hi, rfl⟩ := List.mem_map.1 he
    exact key.1.1 i (List.mem_range.1 hi)
  · intro e he
    obtain ⟨i, hi, rfl⟩ := List.mem_map.1 he
    exact key.1.2 i (List.mem_range.1 hi)
  · rw [hst]; split
    · simp
    · exact key.2

/-- **C34**, first part: with `update_barrier_eps`, in exact arithmetic the barrier parameter after at least one
iteration is within [1e-8, 1e6]. -/
theorem C34_bounded (hu : cfg.updateBarrierEps = true) (hm : 0 < cfg.maxIter) {o' : Obj n ℝ} {st : Status}
    (h : solve L P dt cfg o t0 sc x0 init = (o', .ok st)) : 1 / 10 ^ 8 ≤ o'.eps ∧ o'.eps ≤ 10 ^ 6 := by
  have := C34_generic (by simp) (by simp) (by simp; norm_num) hu hm h
  simpa using this

end Solve
end Nmpc.FMPC
