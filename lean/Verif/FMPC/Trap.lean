import Verif.FMPC.Init
import Verif.FMPC.Total
import Verif.FMPC.LocalConvProps
import Mathlib.Analysis.SpecialFunctions.Log.Basic

/-!
# FMPC: starting points from which a feasible problem is never solved (C122)

The step computed by `forwardPass` satisfies the linearised constraints, and `updateVariables` shortens it until all slacks stay
positive.  A pair of constraints `a ≤ y²`, `b ≤ y` on a linear output `y` of one step therefore traps the iteration at negative
`y`, whatever the cost, the barrier parameter and the line search do.
-/

set_option linter.unusedSectionVars false

namespace Nmpc.FMPC

open DDP (FDeriv LDeriv VDeriv timeAt)
open Matrix Finset

section Trap
variable {n : ℕ} {m p : ℕ → ℕ} {L : GainSolver ℝ} {N : ℕ} {cfg : Config ℝ} {S : Stages n m p ℝ} {x0 : Vec n ℝ}

/-- The primal part of an iteration of any problem: the step satisfies the linearised inequality constraints, and states,
inputs and slacks move along it by a common step length in (0, 1]. -/
theorem procOnce_primal {iter : ℕ} {w w' : Solver n m p ℝ} (hw : w.var.Pos N)
    (h : procOnce L N cfg S x0 iter w = .ok (w', .iterationContinued)) :
    ∃ (alpha : ℝ) (d : Var n m p ℝ), 0 < alpha ∧ alpha ≤ 1 ∧ ∀ i < N,
      w'.var.x i = w.var.x i + alpha • d.x i ∧ w'.var.u i = w.var.u i + alpha • d.u i ∧
      w'.var.s i = w.var.s i + alpha • d.s i ∧ ∃ b,
      (S.dg i (w.var.x i) (w.var.u i) b).C *ᵥ d.x i + (S.dg i (w.var.x i) (w.var.u i) b).D *ᵥ d.u i + d.s i =
        - ineqRes S w.var i := by
  have := procOnce_out (L := L) (N := N) (cfg := cfg) (S := S) (x0 := x0) iter w
  rw [h] at this
  generalize hx : (Res.ok (w', .iterationContinued) : Res (Solver n m p ℝ × Status)) = x at this
  cases this with
  | ubEps => cases hx
  | succeeded => cases hx
  | backward => cases hx
  | forward => cases hx
  | update e he hk w2 hb w3 hf r hr =>
    cases r with
    | ok r =>
      obtain ⟨b, w4⟩ := r
      have h1 := (backwardPass_frame (L := L) (N := N) (cfg := cfg) (S := S) (traced N x0 iter (prepared N S w e))).1
      rw [hb] at h1
      have h2 := (forwardPass_frame (N := N) (cfg := cfg) (x0 := x0) w2).1
      rw [hf] at h2
      have hv3 : w3.var = w.var := h2.trans h1
      have hw3 : w3.var.Pos N := by rw [hv3]; exact hw
      have hd : w3.delta = forwardDelta N w2.eps x0 w2.var w2.coeff w2.term := by
        unfold forwardPass at hf
        exact congrArg (fun q => q.2.delta) hf.symm
      obtain ⟨rfl, -, aS, aNu, a1, a2, -, -, g1, g2, -⟩ := updateVariables_pos hw3 hr
      cases hx
      rw [hv3] at g1 g2
      refine ⟨aS, w3.delta, a1, a2, fun i hi => ⟨(g2 i hi.le).1, (g1 i hi).2.2, (g1 i hi).1, (w.coeff i).G, ?_⟩⟩
      have h3 := backwardPass_coeff (L := L) (N := N) (cfg := cfg) (S := S) (traced N x0 iter (prepared N S w e)) i
      rw [hb] at h3
      have h4 : (traced N x0 iter (prepared N S w e)).coeff i = calcCoeff S w.var i (w.coeff i) := if_pos hi
      rw [h4] at h3
      have hin := forwardDelta_ineq (N := N) (x0 := x0) (eps := w2.eps) (v := w2.var) (co := w2.coeff) (term := w2.term) i
      dsimp only at hin
      rw [h3.2.1, h3.2.2.2.2.1] at hin
      rw [hd]
      exact hin
    | _ => cases hx

/-- Step `i` has two inequality constraints `a ≤ y²` and `b ≤ y` on the output `y = cx·x + cu·u`, with correct derivatives. -/
structure TrapAt (S : Stages n m p ℝ) (i : ℕ) (j₁ j₂ : Fin (p i)) (cx : Vec n ℝ) (cu : Vec (m i) ℝ) (a b : ℝ) : Prop where
  g₁ : ∀ x u, S.g i x u j₁ = a - (cx ⬝ᵥ x + cu ⬝ᵥ u) ^ 2
  g₂ : ∀ x u, S.g i x u j₂ = b - (cx ⬝ᵥ x + cu ⬝ᵥ u)
  c₁ : ∀ x u d, (S.dg i x u d).C j₁ = -(2 * (cx ⬝ᵥ x + cu ⬝ᵥ u)) • cx
  d₁ : ∀ x u d, (S.dg i x u d).D j₁ = -(2 * (cx ⬝ᵥ x + cu ⬝ᵥ u)) • cu
  c₂ : ∀ x u d, (S.dg i x u d).C j₂ = -cx
  d₂ : ∀ x u d, (S.dg i x u d).D j₂ = -cu

/-- The output of step `i`. -/
noncomputable def outY (i : ℕ) (cx : Vec n ℝ) (cu : Vec (m i) ℝ) (v : Var n m p ℝ) : ℝ := cx ⬝ᵥ v.x i + cu ⬝ᵥ v.u i

/-- The trap: positive slacks and multipliers, negative output, first slack at most its square. -/
structure Trapped (N : ℕ) (i : ℕ) (j₁ : Fin (p i)) (cx : Vec n ℝ) (cu : Vec (m i) ℝ) (v : Var n m p ℝ) : Prop where
  pos : v.Pos N
  neg : outY i cx cu v < 0
  slack : v.s i j₁ ≤ outY i cx cu v ^ 2

variable {i : ℕ} {j₁ j₂ : Fin (p i)} {cx : Vec n ℝ} {cu : Vec (m i) ℝ} {a b : ℝ}

/-- **C122**, one iteration: the trap is not left, and the residual of the second constraint is multiplied by `1 - alpha`
with the step length `alpha` in (0, 1] but stays above `b`; hence `alpha < 1` if `b` is not negative. -/
theorem C122_step (hS : TrapAt S i j₁ j₂ cx cu a b) (hi : i < N) (ha : 0 ≤ a) {iter : ℕ} {w w' : Solver n m p ℝ}
    (hw : Trapped N i j₁ cx cu w.var) (h : procOnce L N cfg S x0 iter w = .ok (w', .iterationContinued)) :
    Trapped N i j₁ cx cu w'.var ∧ ∃ alpha : ℝ, 0 < alpha ∧ alpha ≤ 1 ∧
      (∃ d : Var n m p ℝ, ∀ i < N, w'.var.x i = w.var.x i + alpha • d.x i ∧ w'.var.u i = w.var.u i + alpha • d.u i ∧
        w'.var.s i = w.var.s i + alpha • d.s i) ∧
      ineqRes S w'.var i j₂ = (1 - alpha) * ineqRes S w.var i j₂ ∧ b < ineqRes S w'.var i j₂ := by
  obtain ⟨al, d, a1, a2, hd⟩ := procOnce_primal hw.pos h
  obtain ⟨e1, e2, e3, B, e4⟩ := hd i hi
  have hpos := (procOnce_pos hw.pos h).1
  have q1 := congrFun e4 j₁
  have q2 := congrFun e4 j₂
  have mv : ∀ {k l : ℕ} (A : Mat k l ℝ) (x : Vec l ℝ) (j : Fin k), (A *ᵥ x) j = A j ⬝ᵥ x := fun _ _ _ => rfl
  simp only [Pi.add_apply, Pi.neg_apply, mv, ineqRes, hS.g₁, hS.g₂, hS.c₁, hS.d₁, hS.c₂, hS.d₂, smul_dotProduct,
    neg_dotProduct, smul_eq_mul] at q1 q2
  have hy : outY i cx cu w'.var = outY i cx cu w.var + al * (cx ⬝ᵥ d.x i + cu ⬝ᵥ d.u i) := by
    unfold outY
    rw [e1, e2, dotProduct_add, dotProduct_add, dotProduct_smul, dotProduct_smul]
    simp only [smul_eq_mul]; ring
  have hs1 : w'.var.s i j₁ = w.var.s i j₁ + al * d.s i j₁ := by rw [e3]; rfl
  have hs2 : w'.var.s i j₂ = w.var.s i j₂ + al * d.s i j₂ := by rw [e3]; rfl
  have p1 := hpos.1 i hi j₁
  have p2 := hpos.1 i hi j₂
  have p0 := hw.pos.1 i hi j₁
  have hn := hw.neg
  have hsl := hw.slack
  rw [show cx ⬝ᵥ w.var.x i + cu ⬝ᵥ w.var.u i = outY i cx cu w.var from rfl] at q1 q2
  generalize hY : outY i cx cu w.var = Y at *
  generalize hY' : outY i cx cu w'.var = Y' at *
  generalize hD : cx ⬝ᵥ d.x i = Dx at *
  generalize hU : cu ⬝ᵥ d.u i = Du at *
  have hds : d.s i j₁ = Y ^ 2 - a - w.var.s i j₁ + 2 * Y * (Dx + Du) := by linarith
  have hneg : Y' < 0 := by
    by_contra hc
    push Not at hc
    have h1 : -Y ≤ al * (Dx + Du) := by linarith
    have h2 : Y * (al * (Dx + Du)) ≤ Y * (-Y) := mul_le_mul_of_nonpos_left h1 hn.le
    rw [hs1, hds] at p1
    have h3 : (1 - al) * w.var.s i j₁ ≤ (1 - al) * Y ^ 2 := mul_le_mul_of_nonneg_left hsl (by linarith)
    have h4 : 0 ≤ al * a := by positivity
    have h5 : 0 < Y ^ 2 := by nlinarith
    nlinarith
  refine ⟨⟨hpos, by rw [hY']; exact hneg, ?_⟩, al, a1, a2, ⟨d, fun k hk => ⟨(hd k hk).1, (hd k hk).2.1, (hd k hk).2.2.1⟩⟩, ?_, ?_⟩
  · rw [hY', hs1, hds, hy]
    have h3 : 0 ≤ (1 - al) * (Y ^ 2 - w.var.s i j₁) := mul_nonneg (by linarith) (by linarith)
    have h4 : 0 ≤ al * a := by positivity
    have h5 : 0 ≤ (al * (Dx + Du)) ^ 2 := by positivity
    nlinarith
  · simp only [ineqRes, Pi.add_apply, hS.g₂]
    rw [show cx ⬝ᵥ w'.var.x i + cu ⬝ᵥ w'.var.u i = Y' from hY', show cx ⬝ᵥ w.var.x i + cu ⬝ᵥ w.var.u i = Y from hY, hs2, hy]
    have : d.s i j₂ = Dx + Du - (b - Y + w.var.s i j₂) := by linarith
    rw [this]; ring
  · simp only [ineqRes, Pi.add_apply, hS.g₂]
    rw [show cx ⬝ᵥ w'.var.x i + cu ⬝ᵥ w'.var.u i = Y' from hY']
    linarith

theorem Trapped.residual (hS : TrapAt S i j₁ j₂ cx cu a b) (hi : i < N) {v : Var n m p ℝ} (hv : Trapped N i j₁ cx cu v) :
    b < ineqRes S v i j₂ ∧ b < S.g i (v.x i) (v.u i) j₂ := by
  have h1 := hv.pos.1 i hi j₂
  have h2 := hv.neg
  unfold outY at h2
  simp only [ineqRes, Pi.add_apply, hS.g₂]
  constructor <;> linarith

/-- **C122**, the iteration stalls: in any infinite sequence of iterations from the trap the step lengths are summable, with
sum at most `log (r / b)` for the residual `r` of the second constraint at the start. -/
theorem C122_stall (hS : TrapAt S i j₁ j₂ cx cu a b) (hi : i < N) (ha : 0 ≤ a) (hb : 0 < b) {w : ℕ → Solver n m p ℝ}
    {it : ℕ → ℕ} (h0 : Trapped N i j₁ cx cu (w 0).var)
    (h : ∀ k, procOnce L N cfg S x0 (it k) (w k) = .ok (w (k + 1), .iterationContinued)) :
    ∃ alpha : ℕ → ℝ, (∀ k, 0 < alpha k ∧ alpha k < 1 ∧ ∃ d : Var n m p ℝ, ∀ i < N,
        (w (k + 1)).var.x i = (w k).var.x i + alpha k • d.x i ∧ (w (k + 1)).var.u i = (w k).var.u i + alpha k • d.u i ∧
        (w (k + 1)).var.s i = (w k).var.s i + alpha k • d.s i) ∧
      Summable alpha ∧ ∑' k, alpha k ≤ Real.log (ineqRes S (w 0).var i j₂ / b) := by
  have hT : ∀ k, Trapped N i j₁ cx cu (w k).var := by
    intro k
    induction k with
    | zero => exact h0
    | succ k ih => exact (C122_step hS hi ha ih (h k)).1
  choose al a1 a2 ad ar ab using fun k => (C122_step hS hi ha (hT k) (h k)).2
  have hr : ∀ k, b < ineqRes S (w k).var i j₂ := fun k => ((hT k).residual hS hi).1
  have lt1 : ∀ k, al k < 1 := by
    intro k
    rcases (a2 k).lt_or_eq with h | h
    · exact h
    · have := ab k
      rw [ar k, h] at this
      linarith
  have hsum : ∀ k, ∑ l ∈ range k, al l ≤ Real.log (ineqRes S (w 0).var i j₂) - Real.log (ineqRes S (w k).var i j₂) := by
    intro k
    induction k with
    | zero => simp
    | succ k ih =>
      rw [sum_range_succ, ar k, Real.log_mul (by linarith [lt1 k]) (by linarith [hr k])]
      have := Real.log_le_sub_one_of_pos (sub_pos.2 (lt1 k))
      linarith
  have hle : ∀ k, ∑ l ∈ range k, al l ≤ Real.log (ineqRes S (w 0).var i j₂ / b) := by
    intro k
    rw [Real.log_div (by linarith [hr 0]) hb.ne']
    have := Real.log_le_log hb (hr k).le
    linarith [hsum k]
  exact ⟨al, fun k => ⟨a1 k, lt1 k, ad k⟩, summable_of_sum_range_le (fun k => (a1 k).le) hle,
    Real.tsum_le_of_sum_range_le (fun k => (a1 k).le) hle⟩

end Trap

section Solve
variable {n : ℕ} {md pd : ℝ → ℕ} {L : GainSolver ℝ} {P : Callbacks n md pd} {dt : ℝ} {cfg : Config ℝ} {o : Obj n ℝ}
  {t0 : ℝ} {sc : Scratch n (fun i => md (timeAt t0 dt i)) (fun i => pd (timeAt t0 dt i)) ℝ} {x0 : Vec n ℝ}
  {init : VarL n ℝ}
variable {i : ℕ} {j₁ j₂ : Fin (pd (timeAt t0 dt i))} {cx : Vec n ℝ} {cu : Vec (md (timeAt t0 dt i)) ℝ} {a b : ℝ}

/-- **C122.**  A call that starts in the trap never returns `Succeeded` if the threshold is at most `b`: whatever the cost, the
other constraints, the factorisation, the configuration and the number of iterations, every KKT error of the trace exceeds `b`,
and the returned plan violates the constraint `b ≤ y` by more than `b`. -/
theorem C122_solve (hS : TrapAt (stagesOf P t0 dt cfg.horizon.toNat) i j₁ j₂ cx cu a b) (hi : i < cfg.horizon.toNat)
    (ha : 0 ≤ a) (ht : cfg.kktErrorThre ≤ b)
    {vl : VarL n ℝ} (hv : startVar P dt cfg t0 init = .ok vl)
    (h0 : Trapped cfg.horizon.toNat i j₁ cx cu
      (vl.toVar : Var n (fun i => md (timeAt t0 dt i)) (fun i => pd (timeAt t0 dt i)) ℝ))
    {o' : Obj n ℝ} {st : Status} (h : solve L P dt cfg o t0 sc x0 init = (o', .ok st)) :
    st ≠ .succeeded ∧ (∀ e ∈ o'.trace, b < e.kktError) ∧
      ∃ x u, o'.var.xs[i]? = some x ∧ o'.var.us[i]? = some ⟨md (timeAt t0 dt i), u⟩ ∧
        b < P.ineqConst (timeAt t0 dt i) x u j₂ := by
  obtain ⟨v, w, hv', hck, hr, rfl⟩ := solve_ok h
  obtain ⟨st', ho, hst, _⟩ := runSolver_ok hr
  obtain ⟨hl, -, -⟩ := (checkVariable_iff (md := md) (pd := pd) (t0 := t0) (dt := dt) (horizon := cfg.horizon) v).2.2.1 hck
  have hN : cfg.horizon.toNat = v.us.length := by have := hl.2.1; omega
  rw [hv] at hv'
  cases hv'
  rw [hN] at hS hi h0
  have hk : ∀ (w : Solver n (fun i => md (timeAt t0 dt i)) (fun i => pd (timeAt t0 dt i)) ℝ) e,
      Trapped vl.us.length i j₁ cx cu w.var → b < kktOf vl.us.length x0 (prepared vl.us.length (stagesOf P t0 dt vl.us.length) w e) := by
    intro w e hT
    by_contra hc
    push Not at hc
    have h1 := (((kktOf_prepared vl.us.length w e b).1 hc).each.2.2 i hi).2.1 j₂
    have h2 := (hT.residual hS hi).1
    have h3 := (abs_le.1 h1).2
    have h4 : ineqRes (stagesOf P t0 dt vl.us.length) w.var i j₂ =
        P.ineqConst (timeAt t0 dt i) (w.var.x i) (w.var.u i) j₂ + w.var.s i j₂ := rfl
    linarith
  have key : Trapped vl.us.length i j₁ cx cu w.var ∧ st' ≠ .succeeded ∧ ∀ e ∈ w.trace, b < e.kktError := by
    refine optLoop_rule (fun _ st w => Trapped vl.us.length i j₁ cx cu w.var ∧ st ≠ .succeeded ∧ ∀ e ∈ w.trace, b < e.kktError)
      (fun st w => Trapped vl.us.length i j₁ cx cu w.var ∧ st ≠ .succeeded ∧ ∀ e ∈ w.trace, b < e.kktError)
      ⟨h0, by simp, by simp [initSolver]⟩ ?_ (fun _ _ h => h) ho
    intro it st w1 w2 st2 _ _ hI hp
    obtain ⟨hT, -, htr⟩ := hI
    obtain ⟨e, -, -, t, hvar, hs, -⟩ := procOnce_frame hp
    have htr' : ∀ e ∈ w2.trace, b < e.kktError := by
      intro q hq
      rw [t, List.mem_append, List.mem_singleton] at hq
      rcases hq with hq | rfl
      · exact htr q hq
      · exact hk w1 e hT
    have hns : st2 ≠ .succeeded := by
      intro hc
      have := hs.1 hc
      rw [leb_real] at this
      linarith [hk w1 e hT]
    split
    · rename_i hh
      subst hh
      exact ⟨(C122_step hS hi ha hT hp).1, hns, htr'⟩
    · rename_i hh
      exact ⟨by rw [hvar hh]; exact hT, hns, htr'⟩
  refine ⟨?_, key.2.2, w.var.x i, w.var.u i, ?_, ?_, ((key.1).residual hS hi).2⟩
  · rw [hst]
    split
    · simp
    · exact key.2.1
  · simp [Var.out, show i < vl.us.length + 1 by omega]
  · simp only [Var.out, List.getElem?_map, List.getElem?_range hi, Option.map_some]

/-- The initial points that lead into the trap, in terms of the arguments of the call: negative output `y` of step `i`, and
either positive slacks with `s₁ ≤ y²`, or `init_complementary_variable` with `0.0101 ≤ y² ≤ 101 a`. -/
def StartsTrapped (t0 dt : ℝ) (cfg : Config ℝ) (init : VarL n ℝ) (i : ℕ) (j₁ : Fin (pd (timeAt t0 dt i))) (cx : Vec n ℝ)
    (cu : Vec (md (timeAt t0 dt i)) ℝ) (a : ℝ) : Prop :=
  ∃ x u, init.xs[i]? = some x ∧ init.us[i]? = some ⟨md (timeAt t0 dt i), u⟩ ∧ cx ⬝ᵥ x + cu ⬝ᵥ u < 0 ∧
    ((cfg.initComplementary = false ∧ init.Pos ∧ ∃ s, init.ss[i]? = some ⟨pd (timeAt t0 dt i), s⟩ ∧
        s j₁ ≤ (cx ⬝ᵥ x + cu ⬝ᵥ u) ^ 2) ∨
      (cfg.initComplementary = true ∧ 101 / 10000 ≤ (cx ⬝ᵥ x + cu ⬝ᵥ u) ^ 2 ∧ (cx ⬝ᵥ x + cu ⬝ᵥ u) ^ 2 ≤ 101 * a))

/-- **C122** for the arguments of the call. -/
theorem C122_never (hS : TrapAt (stagesOf P t0 dt cfg.horizon.toNat) i j₁ j₂ cx cu a b) (hi : i < cfg.horizon.toNat)
    (ha : 0 ≤ a) (ht : cfg.kktErrorThre ≤ b) (h0 : StartsTrapped t0 dt cfg init i j₁ cx cu a)
    {o' : Obj n ℝ} {st : Status} (h : solve L P dt cfg o t0 sc x0 init = (o', .ok st)) :
    st ≠ .succeeded ∧ (∀ e ∈ o'.trace, b < e.kktError) ∧
      ∃ x u, o'.var.xs[i]? = some x ∧ o'.var.us[i]? = some ⟨md (timeAt t0 dt i), u⟩ ∧
        b < P.ineqConst (timeAt t0 dt i) x u j₂ := by
  obtain ⟨v, w, hv, hck, hr, -⟩ := solve_ok h
  obtain ⟨hl, -, -⟩ := (checkVariable_iff (md := md) (pd := pd) (t0 := t0) (dt := dt) (horizon := cfg.horizon) v).2.2.1 hck
  have hN : cfg.horizon.toNat = v.us.length := by have := hl.2.1; omega
  obtain ⟨x, u, hx, hu, hy, hc⟩ := h0
  have hp : cfg.initComplementary = true ∨ init.Pos := by
    rcases hc with hc | hc
    · exact .inr hc.2.1
    · exact .inl hc.1
  have hpos := solve_pos_start (o := o) (sc := sc) hp hv hck
  have hxu : v.xs = init.xs ∧ v.us = init.us := by
    unfold startVar at hv
    split at hv
    · obtain ⟨e1, e2, -⟩ := initCompl_length hv
      exact ⟨e1, e2⟩
    · cases hv; exact ⟨rfl, rfl⟩
  have hX : (v.toVar : Var n (fun i => md (timeAt t0 dt i)) (fun i => pd (timeAt t0 dt i)) ℝ).x i = x := by
    show stateAt v.xs i = x
    unfold stateAt
    rw [hxu.1, hx]
  have hU : (v.toVar : Var n (fun i => md (timeAt t0 dt i)) (fun i => pd (timeAt t0 dt i)) ℝ).u i = u := by
    show DDP.inputAt (m := fun i => md (timeAt t0 dt i)) v.us i = u
    unfold DDP.inputAt
    rw [hxu.2, hu]
    simp
  have hY : outY i cx cu (v.toVar : Var n (fun i => md (timeAt t0 dt i)) (fun i => pd (timeAt t0 dt i)) ℝ) =
      cx ⬝ᵥ x + cu ⬝ᵥ u := by unfold outY; rw [hX, hU]
  refine C122_solve hS hi ha ht hv ⟨by rw [hN]; exact hpos, by rw [hY]; exact hy, ?_⟩ h
  rw [hY]
  have hs : ∀ s, v.ss[i]? = some ⟨pd (timeAt t0 dt i), s⟩ →
      (v.toVar : Var n (fun i => md (timeAt t0 dt i)) (fun i => pd (timeAt t0 dt i)) ℝ).s i = s := by
    intro s hs
    show DDP.inputAt (m := fun i => pd (timeAt t0 dt i)) v.ss i = s
    unfold DDP.inputAt
    rw [hs]
    simp
  rcases hc with ⟨hf, -, s, hs1, hs2⟩ | ⟨hf, h1, h2⟩
  · unfold startVar at hv
    rw [hf] at hv
    cases hv
    rw [hs s hs1]
    exact hs2
  · unfold startVar at hv
    rw [if_pos hf] at hv
    obtain ⟨x', u', e1, e2, e3, -⟩ := initCompl_value hv i hi
    rw [hx] at e1
    rw [hu] at e2
    cases e1
    cases e2
    rw [hs _ e3]
    have hg : P.ineqConst (timeAt t0 dt i) x u j₁ = a - (cx ⬝ᵥ x + cu ⬝ᵥ u) ^ 2 := hS.g₁ x u
    unfold initSlack
    dsimp only
    rw [hg]
    rcases max_cases (-(a - (cx ⬝ᵥ x + cu ⬝ᵥ u) ^ 2)) (1 / 100) with ⟨h, -⟩ | ⟨h, -⟩ <;> rw [h] <;> linarith

/-- **C122**, what happens instead: with an exact factorisation and convex cost models every valid call from the trap performs
all `max_iter` iterations and returns `MaxIterationReached`, for every `max_iter`. -/
theorem C122_max_iteration (hL : ExactGain L) (hdt : 0 < dt)
    (hc : ConvexCosts cfg.horizon.toNat (stagesOf P t0 dt cfg.horizon.toNat))
    (hS : TrapAt (stagesOf P t0 dt cfg.horizon.toNat) i j₁ j₂ cx cu a b) (hi : i < cfg.horizon.toNat)
    (ha : 0 ≤ a) (ht : cfg.kktErrorThre ≤ b) (h0 : StartsTrapped t0 dt cfg init i j₁ cx cu a)
    (hl : LengthsOk cfg.horizon init) (hd : ∀ i (h : i < init.us.length), init.us[i].1 = md (timeAt t0 dt i))
    (hs : cfg.initComplementary = true ∨ (DimsOk md pd t0 dt init ∧ NonNeg init))
    (hne : NoEmpty cfg.horizon.toNat n (fun i => pd (timeAt t0 dt i)) cfg) (hm : 0 < cfg.maxIter) :
    ∃ o', solve L P dt cfg o t0 sc x0 init = (o', .ok .maxIterationReached) ∧ (o'.trace.length : ℤ) = cfg.maxIter ∧
      ∀ e ∈ o'.trace, b < e.kktError := by
  obtain ⟨o', st, h⟩ := C58_defined (L := L) (P := P) (o := o) (sc := sc) (x0 := x0) hl hd hs hne (.inl hm)
  have h1 := C122_never hS hi ha ht h0 h
  have hp : cfg.initComplementary = true ∨ init.Pos := by
    obtain ⟨x, u, -, -, -, hc | hc⟩ := h0
    · exact .inr hc.2.1
    · exact .inl hc.1
  rcases C31_solve hL hdt hc hp h with h2 | h2 | h2
  · exact absurd h2 h1.1
  · subst h2
    exact ⟨o', h, ((C32_status h).2.2.1 rfl).2, h1.2.1⟩
  · omega

end Solve

/-! ## A concrete instance -/

/-- One state that does not move, cost `u²/2`, constraints `1 ≤ u²` and `1/2 ≤ u`. -/
noncomputable def keepOut : Callbacks 1 (fun _ : ℝ => 1) (fun _ => 2) where
  stateEq _ x _ := x
  runningCost _ _ u := 1 / 2 * (u ⬝ᵥ u)
  terminalCost _ _ := 0
  ineqConst _ _ u := ![1 - u 0 ^ 2, 1 / 2 - u 0]
  stateEqDeriv _ _ _ _ := { Fx := 1, Fu := 0 }
  ineqConstDeriv _ _ u _ := { C := 0, D := ![![-(2 * u 0)], ![-1]] }
  runningCostDeriv _ _ u _ := { Lx := 0, Lu := u, Lxx := 0, Luu := 1, Lxu := 0 }
  terminalCostDeriv _ _ _ := { Vx := 0, Vxx := 0 }

/-- The problem is feasible and its minimiser `u = 1` is unique. -/
theorem keepOut_minimiser (t : ℝ) (x : Vec 1 ℝ) :
    (∀ j, keepOut.ineqConst t x 1 j ≤ 0) ∧ ∀ u : Vec 1 ℝ, (∀ j, keepOut.ineqConst t x u j ≤ 0) → u ≠ 1 →
      keepOut.runningCost t x 1 < keepOut.runningCost t x u := by
  constructor
  · intro j
    fin_cases j <;> norm_num [keepOut]
  · intro u h hu
    have h1 : 1 - u 0 ^ 2 ≤ 0 := h 0
    have h2 : 1 / 2 - u 0 ≤ 0 := h 1
    have h3 : u 0 ≠ 1 := fun hc => hu (funext fun j => by rw [Subsingleton.elim j 0]; exact hc)
    have h4 : 1 < u 0 := lt_of_le_of_ne (by nlinarith) (Ne.symm h3)
    simp only [keepOut, dotProduct, univ_unique, Fin.default_eq_zero, Pi.one_apply, sum_singleton]
    nlinarith

/-- It is a strictly complementary KKT point: multipliers 1/2 and 0, slacks 0 and 1/2. -/
theorem keepOut_kkt (t : ℝ) (x : Vec 1 ℝ) (d : GDeriv 1 1 2 ℝ) :
    keepOut.ineqConst t x 1 + ![0, 1 / 2] = 0 ∧
      (1 : Vec 1 ℝ) + (keepOut.ineqConstDeriv t x 1 d).D.transpose *ᵥ ![1 / 2, 0] = 0 := by
  constructor
  · ext j
    fin_cases j <;> norm_num [keepOut]
  · ext j
    rw [Subsingleton.elim j 0]
    rw [Pi.add_apply, mulVec, dotProduct, Fin.sum_univ_two]
    show (1 : ℝ) + (-(2 * 1) * (1 / 2) + -1 * 0) = 0
    norm_num

theorem keepOut_trap (N : ℕ) : TrapAt (stagesOf keepOut 0 1 N) 0 (0 : Fin 2) (1 : Fin 2) (0 : Vec 1 ℝ) (1 : Vec 1 ℝ) 1 (1 / 2) where
  g₁ x u := by simp [stagesOf, keepOut, dotProduct]
  g₂ x u := by simp [stagesOf, keepOut, dotProduct]
  c₁ x u d := by simp [stagesOf, keepOut]; rfl
  d₁ x u d := by ext j; rw [Subsingleton.elim j 0]; simp [stagesOf, keepOut, dotProduct]
  c₂ x u d := by simp [stagesOf, keepOut]; rfl
  d₂ x u d := by ext j; rw [Subsingleton.elim j 0]; simp [stagesOf, keepOut]

theorem keepOut_convex (N : ℕ) : ConvexCosts N (stagesOf keepOut 0 1 N) where
  xx _ _ _ _ _ := isSymm_zero
  uu _ _ _ _ _ := Matrix.PosDef.one
  joint _ _ _ _ _ y z := by
    simp only [stagesOf, keepOut, one_mulVec, zero_mulVec, dotProduct_zero, mul_zero, zero_add]
    exact dot_self_nonneg z
  term _ _ := Matrix.PosSemidef.zero

/-- A start with input `u`, slacks and multipliers 1. -/
noncomputable def keepOutInit (u : ℝ) : VarL 1 ℝ where
  xs := [fun _ => 0, fun _ => 0]
  us := [⟨1, fun _ => u⟩]
  lams := [fun _ => 0, fun _ => 0]
  ss := [⟨2, fun _ => 1⟩]
  nus := [⟨2, fun _ => 1⟩]

/-- C122 at this problem: with the default configuration, with or without `init_complementary_variable`, line search and
barrier update, the call started at any input in [-10, -1] returns `MaxIterationReached` however many iterations are allowed. -/
theorem keepOut_never (o : Obj 1 ℝ)
    (sc : Scratch 1 (fun i => (fun _ : ℝ => 1) (timeAt 0 1 i)) (fun i => (fun _ : ℝ => 2) (timeAt 0 1 i)) ℝ)
    (x0 : Vec 1 ℝ) {u : ℝ} (h1 : -10 ≤ u) (h2 : u ≤ -1) {k : ℤ} (hk : 0 < k) (ic ls ub : Bool) :
    ∃ o', solve realGain keepOut 1
        { (defaultConfig 1 k : Config ℝ) with initComplementary := ic, enableLineSearch := ls, updateBarrierEps := ub }
        o 0 sc x0 (keepOutInit u) = (o', .ok .maxIterationReached) ∧ (o'.trace.length : ℤ) = k ∧
      ∀ e ∈ o'.trace, 1 / 2 < e.kktError := by
  have hy : ((0 : Vec 1 ℝ) ⬝ᵥ (fun _ => 0 : Vec 1 ℝ) + (1 : Vec 1 ℝ) ⬝ᵥ (fun _ => u : Vec 1 ℝ)) = u := by simp [dotProduct]
  refine C122_max_iteration (i := 0) (j₁ := (0 : Fin 2)) (j₂ := (1 : Fin 2)) (cx := 0) (cu := (1 : Vec 1 ℝ)) (a := 1) (P := keepOut) (dt := 1)
    (t0 := 0) (cfg := { (defaultConfig 1 k : Config ℝ) with initComplementary := ic, enableLineSearch := ls, updateBarrierEps := ub })
    (init := keepOutInit u) realGain_exact one_pos (keepOut_convex _) (keepOut_trap _) (by simp [defaultConfig]) zero_le_one
    (by simp [defaultConfig]; norm_num) ⟨fun _ => 0, fun _ => u, rfl, rfl, ?_, ?_⟩ (by simp [LengthsOk, keepOutInit, defaultConfig])
    ?_ (.inr ⟨⟨?_, ?_, ?_⟩, ?_, ?_⟩) ⟨fun _ _ _ => by norm_num, fun _ h => by cases h⟩ hk
  · rw [hy]; linarith
  · rw [hy]
    cases ic
    · refine .inl ⟨rfl, ⟨?_, ?_⟩, fun _ => 1, rfl, by nlinarith⟩ <;> intro e he j <;>
        simp only [keepOutInit, List.mem_singleton] at he <;> subst he <;> simp
    · exact .inr ⟨rfl, by nlinarith, by nlinarith⟩
  all_goals first
    | (intro i hi; simp only [keepOutInit, List.length_cons, List.length_nil] at hi; obtain rfl : i = 0 := by omega
       rfl)
    | (intro e he j
       simp only [keepOutInit, List.mem_singleton] at he
       subst he
       simp)

/-- The step lengths of every infinite run of iterations on this problem from `u = -2` with unit slacks are summable. -/
example {L : GainSolver ℝ} {cfg : Config ℝ} {x0 : Vec 1 ℝ} {w : ℕ → Solver 1 (fun _ => 1) (fun _ => 2) ℝ}
    (h0 : (w 0).var = (keepOutInit (-2)).toVar)
    (h : ∀ k, procOnce L 1 cfg (stagesOf keepOut 0 1 1) x0 (k + 1) (w k) = .ok (w (k + 1), .iterationContinued)) :
    ∃ alpha : ℕ → ℝ, (∀ k, 0 < alpha k ∧ alpha k < 1) ∧ ∑' k, alpha k ≤ Real.log 7 := by
  have hs : ((keepOutInit (-2)).toVar : Var 1 (fun _ => 1) (fun _ => 2) ℝ).s 0 = fun _ => 1 := by
    simp [VarL.toVar, keepOutInit, DDP.inputAt]
  have hn : ((keepOutInit (-2)).toVar : Var 1 (fun _ => 1) (fun _ => 2) ℝ).nu 0 = fun _ => 1 := by
    simp [VarL.toVar, keepOutInit, DDP.inputAt]
  have hu : ((keepOutInit (-2)).toVar : Var 1 (fun _ => 1) (fun _ => 2) ℝ).u 0 = fun _ => -2 := by
    simp [VarL.toVar, keepOutInit, DDP.inputAt]
  have hT : Trapped 1 0 (0 : Fin 2) (0 : Vec 1 ℝ) (1 : Vec 1 ℝ) (w 0).var := by
    rw [h0]
    refine ⟨⟨fun i hi j => ?_, fun i hi j => ?_⟩, ?_, ?_⟩
    · obtain rfl : i = 0 := by omega
      rw [hs]; norm_num
    · obtain rfl : i = 0 := by omega
      rw [hn]; norm_num
    · simp [outY, hu, dotProduct]
    · simp [outY, hu, hs, dotProduct]
  obtain ⟨al, h1, -, h3⟩ := C122_stall (it := fun k => k + 1) (keepOut_trap 1) one_pos zero_le_one (by norm_num) hT h
  refine ⟨al, fun k => ⟨(h1 k).1, (h1 k).2.1⟩, h3.trans_eq ?_⟩
  congr 1
  rw [h0]
  simp only [ineqRes, stagesOf, keepOut, hs, hu, Pi.add_apply]
  norm_num

end Nmpc.FMPC
