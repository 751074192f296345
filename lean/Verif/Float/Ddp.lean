import Verif.Float.Fmpc
import Verif.DDP.Reg
import Verif.DDP.Cost

/-!
# BoxQP and DDP in floating-point arithmetic (lemmas)
-/

set_option linter.unusedSectionVars false

namespace Nmpc

variable {α : Type} [Add α] [Sub α] [Mul α] [Div α] [Neg α] [Zero α] [One α] [FOps α] {u : ℝ}

namespace FloatLaws

theorem fmax_fin (F : FloatLaws α u) {a b : α} {x y : ℝ} (ha : F.val a = .fin x) (hb : F.val b = .fin y) :
    F.val (fmax a b) = .fin (max x y) := by
  have := F.ltb_iff a b
  rw [ha, hb] at this
  unfold fmax
  by_cases h : x < y
  · rw [if_pos (this.2 h), max_eq_right h.le, hb]
  · rw [if_neg (fun g => h (this.1 g)), max_eq_left (not_lt.1 h), ha]

theorem fmin_fin (F : FloatLaws α u) {a b : α} {x y : ℝ} (ha : F.val a = .fin x) (hb : F.val b = .fin y) :
    F.val (fmin a b) = .fin (min x y) := by
  have := F.ltb_iff b a
  rw [ha, hb] at this
  unfold fmin
  by_cases h : y < x
  · rw [if_pos (this.2 h), min_eq_right h.le, hb]
  · rw [if_neg (fun g => h (this.1 g)), min_eq_left (not_lt.1 h), ha]

theorem ltb_fin (F : FloatLaws α u) {a b : α} {x y : ℝ} (ha : F.val a = .fin x) (hb : F.val b = .fin y) :
    ltb a b = true ↔ x < y := by
  rw [F.ltb_iff, ha, hb]; rfl

theorem leb_fin (F : FloatLaws α u) {a b : α} {x y : ℝ} (ha : F.val a = .fin x) (hb : F.val b = .fin y) :
    leb a b = true ↔ x ≤ y := by
  unfold leb
  rw [Bool.or_eq_true, F.ltb_iff, F.eqb_iff, ha, hb]
  exact le_iff_lt_or_eq.symm

/-- A rounded difference that is not negative comes from numbers in that order. -/
theorem sub_le (F : FloatLaws α u) (hu : u < 1) {a b : α} (h : leb 0 (a - b) = true) : leb b a = true := by
  unfold leb at h ⊢
  rw [Bool.or_eq_true, F.ltb_iff, F.eqb_iff, F.zero] at h
  rw [Bool.or_eq_true, F.ltb_iff, F.eqb_iff]
  have hs := F.sub a b
  generalize F.val (a - b) = z at hs h
  cases ha : F.val a <;> cases hb : F.val b <;> rw [ha, hb] at hs <;> simp only [FVal.Lt, FVal.Eq, or_true, true_or] <;>
    try (rw [show z = .nan from hs] at h; simp [FVal.Lt, FVal.Eq] at h)
  · rw [show z = .ninf from hs] at h; simp [FVal.Lt, FVal.Eq] at h
  · rw [show z = .ninf from hs] at h; simp [FVal.Lt, FVal.Eq] at h
  · rw [show z = .ninf from hs] at h; simp [FVal.Lt, FVal.Eq] at h
  · rename_i x y
    obtain ⟨δ, hδ, rfl⟩ := hs
    rw [abs_le] at hδ
    have h5 : 0 < 1 + δ := by linarith
    have h6 : 0 ≤ (x + -y) * (1 + δ) := by
      rcases h with h | h
      · exact le_of_lt h
      · exact le_of_eq h
    have : 0 ≤ x + -y := by
      by_contra hn
      nlinarith
    exact lt_or_eq_of_le (by linarith)

/-- The comparison laws used for the monotonicity of the cost hold under rounding. -/
theorem ordLaws (F : FloatLaws α u) (hu : u < 1) : OrdLaws α where
  zero_eq := by rw [F.eqb_iff, F.zero]; rfl
  neg_one := by
    rw [← Bool.not_eq_true, F.ltb_iff, F.zero, F.neg, F.one]
    simp [FVal.neg, FVal.Lt]
  le_lt := by
    intro a b h1 h2
    unfold leb at h1
    rw [Bool.or_eq_true, F.ltb_iff, F.eqb_iff, F.zero] at h1
    rw [F.ltb_iff] at h2 ⊢
    rw [F.zero]
    cases ha : F.val a <;> cases hb : F.val b <;> simp_all [FVal.Lt, FVal.Eq]
    rcases h1 with h | h <;> linarith
  div_pos := by
    intro x e h1 h2 h3
    rw [← Bool.not_eq_true, F.ltb_iff, F.zero] at h1
    rw [← Bool.not_eq_true, F.eqb_iff, F.zero] at h2
    rw [F.zero_ltb] at h3 ⊢
    have hd := F.div x e
    generalize F.val (x / e) = z at hd h3
    cases he : F.val e with
    | nan =>
      rw [he] at hd
      have : z = .nan := by cases hx : F.val x <;> rw [hx] at hd <;> exact hd
      subst this
      rcases h3 with h3 | ⟨_, h3, _⟩ <;> cases h3
    | ninf => rw [he] at h1; exact absurd trivial h1
    | pinf =>
      rw [he] at hd
      have : z = .nan ∨ z = .fin 0 := by
        cases hx : F.val x <;> rw [hx] at hd
        · exact .inl hd
        · exact .inl hd
        · exact .inl hd
        · exact .inr hd
      rcases this with rfl | rfl
      · rcases h3 with h3 | ⟨_, h3, _⟩ <;> cases h3
      · rcases h3 with h3 | ⟨_, h3, h4⟩
        · cases h3
        · cases h3; exact absurd h4 (lt_irrefl _)
    | fin y =>
      rw [he] at hd h1 h2
      have hy : 0 < y := lt_of_le_of_ne (not_lt.1 h1) (fun h => h2 h.symm)
      cases hx : F.val x with
      | nan => rw [hx] at hd; rw [show z = .nan from hd] at h3; rcases h3 with h3 | ⟨_, h3, _⟩ <;> cases h3
      | ninf =>
        rw [hx] at hd
        rw [(hd hy.ne').2.2.1 ⟨trivial, hy⟩] at h3
        rcases h3 with h3 | ⟨_, h3, _⟩ <;> cases h3
      | pinf => exact .inl rfl
      | fin r =>
        right
        refine ⟨r, rfl, ?_⟩
        rw [hx] at hd
        obtain ⟨δ, hδ, rfl⟩ := hd hy.ne'
        rcases h3 with h3 | ⟨w, h3, h4⟩
        · cases h3
        · cases h3
          rw [abs_le] at hδ
          have h5 : 0 < 1 + δ := by linarith
          by_contra hr
          have : r / y ≤ 0 := div_nonpos_of_nonpos_of_nonneg (not_lt.1 hr) hy.le
          nlinarith
  sub_pos := by
    intro a b h
    exact F.sub_le hu (by unfold leb; rw [h, Bool.true_or])
  sub_nonneg := by
    intro a b h
    exact F.sub_le hu h
  le_trans := by
    intro a b c h1 h2
    unfold leb at h1 h2 ⊢
    rw [Bool.or_eq_true, F.ltb_iff, F.eqb_iff] at h1 h2 ⊢
    cases ha : F.val a <;> cases hb : F.val b <;> cases hc : F.val c <;> simp_all [FVal.Lt, FVal.Eq]
    rename_i x y z
    have : x ≤ z := by
      rcases h1 with h1 | h1 <;> rcases h2 with h2 | h2 <;> linarith
    exact lt_or_eq_of_le this

end FloatLaws
end Nmpc

namespace Nmpc.BoxQP

variable {α : Type} [Add α] [Sub α] [Mul α] [Div α] [Neg α] [Zero α] [One α] [FOps α] {u : ℝ}

theorem stepSeq_float (F : FloatLaws α u) (c : Config α) {f : ℝ} (hf : F.val c.stepFactor = .fin f) (k : ℕ) :
    ∃ s, F.val (stepSeq c k) = .fin s ∧ |s| ≤ (|f| * (1 + u)) ^ k := by
  have u0 := F.u_nonneg
  induction k with
  | zero => exact ⟨1, F.one, by simp⟩
  | succ k ih =>
    obtain ⟨s, hs, h1⟩ := ih
    obtain ⟨δ, hδ, h2⟩ := F.mul_fin hs hf
    refine ⟨_, h2, ?_⟩
    rw [abs_mul, abs_mul, pow_succ]
    have h3 : |1 + δ| ≤ 1 + u := by
      rw [abs_le] at hδ ⊢
      constructor <;> linarith [hδ.1, hδ.2]
    calc |s| * |f| * |1 + δ| = |s| * (|f| * |1 + δ|) := by ring
      _ ≤ |s| * (|f| * (1 + u)) := mul_le_mul_of_nonneg_left (mul_le_mul_of_nonneg_left h3 (abs_nonneg _)) (abs_nonneg _)
      _ ≤ _ := mul_le_mul_of_nonneg_right h1 (mul_nonneg (abs_nonneg _) (by linarith))

theorem step_small_float (F : FloatLaws α u) (c : Config α) {f m : ℝ} (hf : F.val c.stepFactor = .fin f)
    (h1 : |f| * (1 + u) < 1) (hm : F.val c.minStep = .fin m) (m0 : 0 < m) :
    ∃ k, ltb (stepSeq c (k + 1)) c.minStep = true := by
  have u0 := F.u_nonneg
  have hn : 0 ≤ |f| * (1 + u) := mul_nonneg (abs_nonneg _) (by linarith)
  obtain ⟨k, hk⟩ := exists_pow_lt_of_lt_one m0 h1
  obtain ⟨s, hs, h2⟩ := stepSeq_float F c hf (k + 1)
  refine ⟨k, (F.ltb_fin hs hm).2 ?_⟩
  have h3 : (|f| * (1 + u)) ^ (k + 1) ≤ (|f| * (1 + u)) ^ k := pow_le_pow_of_le_one hn h1.le (by omega)
  exact lt_of_le_of_lt ((le_abs_self s).trans (h2.trans h3)) hk

/-- The default configuration of BoxQP. -/
theorem default_small_float (F : FloatLaws α u) (hu : u ≤ 1 / 2048) :
    ∃ k, ltb (stepSeq (Config.default : Config α) (k + 1)) (Config.default : Config α).minStep = true := by
  have u0 := F.u_nonneg
  obtain ⟨f, hf, f1, f2⟩ := (F.lit (6 / 10)).nonneg (by norm_num)
  obtain ⟨m, hm, m1, m2⟩ := (F.lit (1 / 10 ^ 22)).nonneg (by positivity)
  push_cast at f1 f2 m1 m2
  refine step_small_float F _ (f := f) (m := m) ?_ ?_ ?_ ?_
  · exact hf
  · rw [abs_of_nonneg (by nlinarith)]
    nlinarith
  · exact hm
  · have : (0 : ℝ) < 1 / 10 ^ 22 * (1 - u) := mul_pos (by positivity) (by linarith)
    linarith

end Nmpc.BoxQP

namespace Nmpc.DDP

variable {α : Type} [Add α] [Sub α] [Mul α] [Div α] [Neg α] [Zero α] [One α] [FOps α] {u : ℝ}
  {n : ℕ} {m : ℕ → ℕ} {L : LLT α} {N : ℕ} {cfg : Config α} {S : Stages n m α}

/-- A backward sweep ends if the line search of the box QP does (any arithmetic). -/
theorem bwLoop_ends (hq : ∃ k, ltb (BoxQP.stepSeq (BoxQP.Config.default : BoxQP.Config α) (k + 1))
      (BoxQP.Config.default : BoxQP.Config α).minStep = true)
    (c : Ctrl n m α) (d : Derivs n m α) (lambda : α) (i : ℕ) (s : BwState n m α) :
    bwLoop L N cfg S c d lambda i s ≠ .diverge := by
  induction i generalizing s with
  | zero => simp [bwLoop]
  | succ i ih =>
    unfold bwLoop bwStage
    split
    · exact fun h => by cases h
    · dsimp only
      have hs : stageGains L N cfg S c s.gains i (calcQ cfg lambda (d.F i) (d.L i) s.V) ≠ .diverge := by
        unfold stageGains
        split
        · split
          · split
            · exact fun h => by cases h
            · rename_i lm _
              intro h
              rcases constrainedGains_out (L := L) (calcQ cfg lambda (d.F i) (d.L i) s.V) (lm i).1 (lm i).2 (c.u i)
                (initialK N s.gains i) with h1 | ⟨r, _, h1 | h1 | h1⟩
              · obtain ⟨r, h2, _⟩ := BoxQP.C03_terminates (L := L) (c := BoxQP.Config.default)
                  (o := freshQP (m i))
                  (a := { H := (calcQ cfg lambda (d.F i) (d.L i) s.V).QuuF, g := (calcQ cfg lambda (d.F i) (d.L i) s.V).Qu,
                          lower := (lm i).1 - c.u i, upper := (lm i).2 - c.u i, init := initialK N s.gains i })
                  (by simp [BoxQP.Config.default]) hq
                rw [h2] at h1; exact absurd h1.2 (by simp)
              · rw [h] at h1; exact absurd h1.2 (by simp)
              · rw [h] at h1; exact absurd h1.2.2 (by simp)
              · rw [h] at h1; exact absurd h1.2.2.2 (by simp)
          · exact fun h => by cases h
        · exact fun h => by cases h
      rcases stageGains_kind (L := L) (N := N) (cfg := cfg) (S := S) c s.gains i
        (calcQ cfg lambda (d.F i) (d.L i) s.V) with ⟨r, h⟩ | ⟨h, hc⟩ | ⟨h, hc⟩
      · rw [h, Res.bind_ok]
        cases r with
        | none => exact fun h => by cases h
        | some r => exact ih _
      · exact absurd h hs
      · rw [h]; exact fun h => by cases h

/-- The parameters of the regularisation as real numbers. -/
structure RegParams (F : FloatLaws α u) (cfg : Config α) where
  f : ℝ
  lo : ℝ
  hi : ℝ
  hf : F.val cfg.lambdaFactor = .fin f
  hlo : F.val cfg.lambdaMin = .fin lo
  hhi : F.val cfg.lambdaMax = .fin hi
  f1 : (1 + u) ^ 2 < f * (1 - u)
  lo0 : 0 < lo

/-- The regularisation coefficient and its scaling factor are numbers. -/
def FinReg (F : FloatLaws α u) (s : Solver n m α) : Prop := (∃ l, F.val s.lambda = .fin l) ∧ ∃ d, F.val s.dlambda = .fin d

section Reg
variable {F : FloatLaws α u} (R : RegParams F cfg) (hu : u ≤ 1 / 2048)
include R hu

theorem RegParams.f_gt : 1 < R.f * (1 - u) ∧ 1 < R.f ∧ (1 + u) ^ 2 < R.f := by
  have u0 := F.u_nonneg
  have := R.f1
  have h1 : 1 ≤ (1 + u) ^ 2 := by nlinarith
  have h2 : 0 < R.f := by
    by_contra h
    nlinarith
  exact ⟨by linarith, by nlinarith, by nlinarith⟩

theorem increase_float {s : Solver n m α} (hs : FinReg F s) :
    ∃ l d, F.val (s.increase cfg).lambda = .fin l ∧ F.val (s.increase cfg).dlambda = .fin d ∧ R.lo ≤ l ∧ R.f ≤ d ∧
      ∀ x, F.val s.lambda = .fin x → 0 ≤ x → x * (R.f * (1 - u)) ≤ l := by
  have u0 := F.u_nonneg
  obtain ⟨⟨l, hl⟩, ⟨d, hd⟩⟩ := hs
  obtain ⟨δ, _, h1⟩ := F.mul_fin hd R.hf
  have h2 := F.fmax_fin h1 R.hf
  obtain ⟨ε, hε, h3⟩ := F.mul_fin hl h2
  have h4 := F.fmax_fin h3 R.hlo
  refine ⟨_, _, h4, h2, le_max_right _ _, le_max_right _ _, ?_⟩
  intro x hx x0
  rw [hl] at hx; cases hx
  refine le_trans ?_ (le_max_left _ _)
  rw [abs_le] at hε
  have g1 : R.f ≤ max (d * R.f * (1 + δ)) R.f := le_max_right _ _
  have g2 := (R.f_gt hu).2.1
  calc l * (R.f * (1 - u)) = l * R.f * (1 - u) := by ring
    _ ≤ l * max (d * R.f * (1 + δ)) R.f * (1 - u) :=
      mul_le_mul_of_nonneg_right (mul_le_mul_of_nonneg_left g1 x0) (by linarith)
    _ ≤ _ := mul_le_mul_of_nonneg_left (by linarith) (mul_nonneg x0 (by linarith))

theorem bwRounds_float (j : ℕ) {s : Solver n m α} {l d : ℝ} (hl : F.val s.lambda = .fin l) (hd : F.val s.dlambda = .fin d)
    (h0 : R.lo ≤ l) (hj : R.hi < l * (R.f * (1 - u)) ^ j) :
    ∃ r, loopM (bwRound L N cfg S) s = some r := by
  have g := (R.f_gt hu).1
  have l0 : 0 ≤ l := le_trans R.lo0.le h0
  induction j generalizing s l d with
  | zero =>
    cases h : bwRound L N cfg S s with
    | inr r => exact ⟨r, loopM_inr h⟩
    | inl s' =>
      exfalso
      have := bwRound_out (L := L) (N := N) (cfg := cfg) (S := S) s
      rw [h] at this
      cases this with
      | again b hb hlt =>
        obtain ⟨l', d', k1, k2, k3, k4, k5⟩ := increase_float R hu (s := s.setBw b) ⟨⟨l, hl⟩, ⟨d, hd⟩⟩
        have k6 := k5 l hl l0
        rw [← Bool.not_eq_true, F.ltb_fin R.hhi k1, not_lt] at hlt
        simp only [pow_zero, mul_one] at hj
        nlinarith
  | succ j ih =>
    cases h : bwRound L N cfg S s with
    | inr r => exact ⟨r, loopM_inr h⟩
    | inl s' =>
      have := bwRound_out (L := L) (N := N) (cfg := cfg) (S := S) s
      rw [h] at this
      cases this with
      | again b hb hlt =>
        obtain ⟨l', d', k1, k2, k3, k4, k5⟩ := increase_float R hu (s := s.setBw b) ⟨⟨l, hl⟩, ⟨d, hd⟩⟩
        have k6 := k5 l hl l0
        rw [loopM_inl h]
        refine ih k1 k2 k3 (lt_of_lt_of_le hj ?_) (le_trans R.lo0.le k3)
        calc l * (R.f * (1 - u)) ^ (j + 1) = (l * (R.f * (1 - u))) * (R.f * (1 - u)) ^ j := by ring
          _ ≤ _ := mul_le_mul_of_nonneg_right k6 (pow_nonneg (by linarith) _)

theorem bwRounds_float' {s : Solver n m α} (hs : FinReg F s) : ∃ r, loopM (bwRound L N cfg S) s = some r := by
  cases h : bwRound L N cfg S s with
  | inr r => exact ⟨r, loopM_inr h⟩
  | inl s' =>
    have := bwRound_out (L := L) (N := N) (cfg := cfg) (S := S) s
    rw [h] at this
    cases this with
    | again b hb hlt =>
      obtain ⟨l', d', k1, k2, k3, k4, k5⟩ := increase_float R hu (s := s.setBw b) hs
      rw [loopM_inl h]
      have hpos : 0 < l' := lt_of_lt_of_le R.lo0 k3
      obtain ⟨j, hj⟩ := pow_unbounded_of_one_lt (R.hi / l') (R.f_gt hu).1
      rw [div_lt_iff₀ hpos, mul_comm] at hj
      exact bwRounds_float R hu j k1 k2 k3 hj

theorem bwSearch_float {s : Solver n m α} (hs : FinReg F s) : (bwSearch L N cfg S s).2 ≠ .diverge := by
  obtain ⟨r, hr⟩ := bwRounds_float' (L := L) (N := N) (S := S) R hu hs
  unfold bwSearch
  rw [hr]
  refine loopM_invariant (fun _ => True) (fun r : Solver n m α × Res Bool => r.2 ≠ .diverge) (fun _ _ _ _ => trivial)
    ?_ trivial hr
  intro s r _ h
  have := bwRound_out (L := L) (N := N) (cfg := cfg) (S := S) s
  rw [h] at this
  cases this with
  | success b hb => simp
  | giveUp b hb hl => simp
  | err e he hb =>
    intro h
    dsimp only at h
    subst h
    refine bwLoop_ends (L := L) (N := N) (cfg := cfg) (S := S) (BoxQP.default_small_float F hu) s.ctrl s.derivs s.lambda N
      { V := s.derivs.V, dV0 := 0, dV1 := 0, gains := s.gains } ?_
    rw [← backwardPass]
    cases hq : backwardPass L N cfg S s <;> rw [hq] at hb <;> simp_all [Res.map]

theorem decrease_float {s : Solver n m α} {l d : ℝ} (hl : F.val s.lambda = .fin l) (hd : F.val s.dlambda = .fin d) :
    ∃ l' d', F.val (s.decrease cfg).lambda = .fin l' ∧ F.val (s.decrease cfg).dlambda = .fin d' ∧ (0 < d → 0 < d') ∧
      (0 < d → 0 ≤ l → 0 ≤ l' ∧ l' ≤ l) := by
  have u0 := F.u_nonneg
  obtain ⟨g1, g2, g3⟩ := R.f_gt hu
  have f0 : 0 < R.f := by linarith
  obtain ⟨δ, hδ, h1⟩ := F.div_fin hd R.hf f0.ne'
  obtain ⟨ε, hε, h2⟩ := F.div_fin F.one R.hf f0.ne'
  have h3 := F.fmin_fin h1 h2
  rw [abs_le] at hδ hε
  have hle : min (d / R.f * (1 + δ)) (1 / R.f * (1 + ε)) * (1 + u) ≤ 1 := by
    have : 1 / R.f * (1 + ε) * (1 + u) ≤ 1 := by
      rw [div_mul_eq_mul_div, div_mul_eq_mul_div, div_le_one f0]
      nlinarith
    exact le_trans (mul_le_mul_of_nonneg_right (min_le_right _ _) (by linarith)) this
  have hpos : 0 < d → 0 < min (d / R.f * (1 + δ)) (1 / R.f * (1 + ε)) := by
    intro d0
    refine lt_min (mul_pos (by positivity) (by linarith)) (mul_pos (by positivity) (by linarith))
  obtain ⟨ρ, hρ, h4⟩ := F.mul_fin hl h3
  rw [abs_le] at hρ
  have hlam : (s.decrease cfg).lambda = if leb cfg.lambdaMin s.lambda then s.lambda * (s.decrease cfg).dlambda else 0 := rfl
  rw [hlam]
  by_cases hc : leb cfg.lambdaMin s.lambda = true
  · rw [if_pos hc]
    refine ⟨_, _, h4, h3, hpos, ?_⟩
    intro d0 l0
    have := hpos d0
    refine ⟨mul_nonneg (mul_nonneg l0 this.le) (by linarith), ?_⟩
    calc l * min (d / R.f * (1 + δ)) (1 / R.f * (1 + ε)) * (1 + ρ)
        = l * (min (d / R.f * (1 + δ)) (1 / R.f * (1 + ε)) * (1 + ρ)) := by ring
      _ ≤ l * (min (d / R.f * (1 + δ)) (1 / R.f * (1 + ε)) * (1 + u)) :=
        mul_le_mul_of_nonneg_left (mul_le_mul_of_nonneg_left (by linarith) this.le) l0
      _ ≤ l * 1 := mul_le_mul_of_nonneg_left hle l0
      _ = l := mul_one l
  · rw [if_neg hc]
    exact ⟨0, _, F.zero, h3, hpos, fun _ l0 => ⟨le_refl _, l0⟩⟩

end Reg

end Nmpc.DDP
