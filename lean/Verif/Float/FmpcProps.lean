import Verif.Float.Fmpc
import Verif.Float.Binary
import Verif.FMPC.Total
import Verif.FMPC.Witness

/-!
# FMPC in floating-point arithmetic (C93)

Slacks and multipliers stay positive under rounding, the repair of negative elements is never needed, and `solve`
terminates and is defined, for every unit roundoff up to 2^-11 (half precision).
-/

set_option linter.unusedSectionVars false

namespace Nmpc.FMPC

open DDP (timeAt)

variable {α : Type} [Add α] [Sub α] [Mul α] [Div α] [Neg α] [Zero α] [One α] [FOps α] {u : ℝ}

/-- No slack or multiplier of the steps below the horizon is `<= 0` (it is positive, or NaN). -/
def Var.Safe {n : ℕ} {m p : ℕ → ℕ} (N : ℕ) (v : Var n m p α) : Prop :=
  (∀ i < N, ∀ j, leb (v.s i j) 0 = false) ∧ (∀ i < N, ∀ j, leb (v.nu i j) 0 = false)

/-- No slack or multiplier in the lists is `<= 0`. -/
def VarL.Safe {n : ℕ} (v : VarL n α) : Prop :=
  (∀ e ∈ v.ss, ∀ j, leb (e.2 j) 0 = false) ∧ (∀ e ∈ v.nus, ∀ j, leb (e.2 j) 0 = false)

theorem repair_of_safe {k : ℕ} (v : Vec k α) (h : ∀ j, leb (v j) 0 = false) : repair v = v := by
  unfold repair
  rw [if_neg]
  simp only [List.any_eq_true, not_exists, not_and, Bool.not_eq_true]
  intro j _
  exact FloatLaws.not_neg_of_safe (h j)

/-- The step length of the line search is positive and not larger than `alpha_s_max`. -/
theorem lineSearch_float (F : FloatLaws α u) (hu : u ≤ 1 / 2048) {n : ℕ} {m p : ℕ → ℕ} {N : ℕ} {cfg : Config α}
    {S : Stages n m p α} {x0 : Vec n α} {w w' : Solver n m p α} {aMax a : α} {r : ℝ} (hr : F.val aMax = .fin r)
    (h0 : 0 < r) (h1 : r ≤ 1) (h : lineSearch N cfg S x0 w aMax = .ok (a, w')) :
    ∃ r', F.val a = .fin r' ∧ 0 < r' ∧ r' ≤ r := by
  have := lineSearch_out (N := N) (cfg := cfg) (S := S) (x0 := x0) w aMax
  rw [h] at this
  generalize hx : (Res.ok (a, w') : Res (α × Solver n m p α)) = x at this
  cases this with
  | off hh => cases hx; exact ⟨r, hr, h0, le_refl _⟩
  | on hh mt hm b hb =>
    cases hx
    have g0 : ltb 0 aMax = true := F.zero_ltb.2 (.inr ⟨r, hr, h0⟩)
    have g1 : leb aMax 1 = true := by
      unfold leb
      rw [Bool.or_eq_true, F.ltb_iff, F.eqb_iff, hr, F.one]
      exact lt_or_eq_of_le h1
    obtain ⟨k, hk, h2, _⟩ := lsLoop_spec (armijo N S x0 { w with merit := mt }) 34 aMax (halvingLaw_float F hu aMax g0 g1)
    rw [hb] at h2
    cases h2
    obtain ⟨r', k1, k2, k3, _⟩ := halve_iter_float F hu k hr h0
    exact ⟨r', k1, k2, k3⟩
  | ub => cases hx
  | diverge => cases hx

/-- **C93**, one update: if no slack or multiplier is `<= 0`, the same holds after the update, the new slacks and
multipliers are the plain steps (the replacement of negative elements in FmpcSolver.hpp 813-829 does nothing), and every
finite component with a finite direction keeps at least a quarter percent of its value.  The update is only rejected if
some component of the direction is minus infinity. -/
theorem C93_update (F : FloatLaws α u) (hu : u ≤ 1 / 2048) {n : ℕ} {m p : ℕ → ℕ} {N : ℕ} {cfg : Config α}
    {S : Stages n m p α} {x0 : Vec n α} {w : Solver n m p α} (hw : w.var.Safe N) {b : Bool} {w' : Solver n m p α}
    (h : updateVariables N cfg S x0 w = .ok (b, w')) :
    w'.var.Safe N ∧
    (b = true → ∃ aS aNu : α,
      (∃ r, F.val aS = .fin r ∧ 0 < r ∧ r ≤ 1) ∧ (∃ r, F.val aNu = .fin r ∧ 0 < r ∧ r ≤ 1) ∧
      ∀ i < N, ∀ j,
        (w'.var.s i j = w.var.s i j + aS * w.delta.s i j ∧ w'.var.nu i j = w.var.nu i j + aNu * w.delta.nu i j) ∧
        (∀ x y, F.val (w.var.s i j) = .fin x → F.val (w.delta.s i j) = .fin y →
          ∃ z, F.val (w'.var.s i j) = .fin z ∧ 25 / 10000 * x ≤ z) ∧
        (∀ x y, F.val (w.var.nu i j) = .fin x → F.val (w.delta.nu i j) = .fin y →
          ∃ z, F.val (w'.var.nu i j) = .fin z ∧ 25 / 10000 * x ≤ z)) ∧
    ((∀ i < N, ∀ j, F.val (w.delta.s i j) ≠ .ninf ∧ F.val (w.delta.nu i j) ≠ .ninf) → b = true) := by
  have hu1 : u < 1 := by linarith
  obtain ⟨rs, s1, s2, s3, s4, s5⟩ := alphaMax_float F hu1 w.var.s w.delta.s hw.1
  obtain ⟨rn, n1, n2, n3, n4, n5⟩ := alphaMax_float F hu1 w.var.nu w.delta.nu hw.2
  have hle : ∀ {a : α} {r : ℝ}, F.val a = .fin r → r ≤ 1 → leb a 1 = true := by
    intro a r ha hr
    unfold leb
    rw [Bool.or_eq_true, F.ltb_iff, F.eqb_iff, ha, F.one]
    exact lt_or_eq_of_le hr
  have := updateVariables_out (N := N) (cfg := cfg) (S := S) (x0 := x0) w
  rw [h] at this
  generalize hx : (Res.ok (b, w') : Res (Bool × Solver n m p α)) = x at this
  cases this with
  | reject hh =>
    cases hx
    refine ⟨hw, ⟨?_, ?_⟩⟩
    · intro hb; cases hb
    intro hn
    exfalso
    have : alphaOk (alphaMax N w.var.s w.delta.s) (alphaMax N w.var.nu w.delta.nu) = true := by
      unfold alphaOk
      simp only [Bool.and_eq_true]
      exact ⟨⟨⟨F.zero_ltb.2 (.inr ⟨rs, s1, s5 fun i hi j => (hn i hi j).1⟩), hle s1 s3⟩,
        F.zero_ltb.2 (.inr ⟨rn, n1, n5 fun i hi j => (hn i hi j).2⟩)⟩, hle n1 n3⟩
    rw [this] at hh
    cases hh
  | step hh a mt hl =>
    cases hx
    unfold alphaOk at hh
    simp only [Bool.and_eq_true] at hh
    obtain ⟨⟨⟨q1, _⟩, q2⟩, _⟩ := hh
    have hrs : 0 < rs := by
      rcases F.zero_ltb.1 q1 with g | ⟨r, g, h⟩ <;> rw [s1] at g <;> cases g
      exact h
    have hrn : 0 < rn := by
      rcases F.zero_ltb.1 q2 with g | ⟨r, g, h⟩ <;> rw [n1] at g <;> cases g
      exact h
    obtain ⟨ra, a1, a2, a3⟩ := lineSearch_float F hu s1 hrs s3 hl
    have ps : ∀ i < N, ∀ j, _ := fun i hi j => step_float F hu (hw.1 i hi j) a1 a2 ((s4 i hi j).mono a3)
    have pn : ∀ i < N, ∀ j, _ := fun i hi j => step_float F hu (hw.2 i hi j) n1 hrn (n4 i hi j)
    have es : ∀ i < N, (applyStep w.var w.delta a (alphaMax N w.var.nu w.delta.nu)).s i =
        w.var.s i + smulv a (w.delta.s i) := fun i hi => repair_of_safe _ fun j => (ps i hi j).1
    have en : ∀ i < N, (applyStep w.var w.delta a (alphaMax N w.var.nu w.delta.nu)).nu i =
        w.var.nu i + smulv (alphaMax N w.var.nu w.delta.nu) (w.delta.nu i) := fun i hi =>
      repair_of_safe _ fun j => (pn i hi j).1
    refine ⟨⟨?_, ?_⟩, fun _ => ⟨a, alphaMax N w.var.nu w.delta.nu, ⟨ra, a1, a2, a3.trans s3⟩, ⟨rn, n1, hrn, n3⟩, ?_⟩,
      fun _ => rfl⟩
    · intro i hi j; dsimp only; rw [es i hi]; exact (ps i hi j).1
    · intro i hi j; dsimp only; rw [en i hi]; exact (pn i hi j).1
    · intro i hi j
      dsimp only
      rw [es i hi, en i hi]
      exact ⟨⟨rfl, rfl⟩, (ps i hi j).2, (pn i hi j).2⟩
  | ub => cases hx
  | diverge => cases hx

theorem procOnce_safe (F : FloatLaws α u) (hu : u ≤ 1 / 2048) {n : ℕ} {m p : ℕ → ℕ} {L : GainSolver α} {N : ℕ}
    {cfg : Config α} {S : Stages n m p α} {x0 : Vec n α} {iter : ℕ} {w w' : Solver n m p α} {st : Status}
    (hw : w.var.Safe N) (h : procOnce L N cfg S x0 iter w = .ok (w', st)) : w'.var.Safe N := by
  by_cases hc : st = .iterationContinued ∨ st = .errorInUpdate
  · have := procOnce_out (L := L) (N := N) (cfg := cfg) (S := S) (x0 := x0) iter w
    rw [h] at this
    generalize hx : (Res.ok (w', st) : Res (Solver n m p α × Status)) = x at this
    cases this with
    | ubEps => cases hx
    | succeeded => cases hx; simp at hc
    | backward => cases hx; simp at hc
    | forward => cases hx; simp at hc
    | update e he hk w2 hb w3 hf r hr =>
      cases r with
      | ok r =>
        obtain ⟨b, w4⟩ := r
        cases hx
        have h1 := (backwardPass_frame (L := L) (N := N) (cfg := cfg) (S := S) (traced N x0 iter (prepared N S w e))).1
        rw [hb] at h1
        have h2 := (forwardPass_frame (N := N) (cfg := cfg) (x0 := x0) w2).1
        rw [hf] at h2
        have hw3 : w3.var.Safe N := by
          dsimp only at h1 h2
          rw [h2, h1]; exact hw
        exact (C93_update F hu hw3 hr).1
      | _ => cases hx
  · rw [not_or] at hc
    obtain ⟨e, he, _, _, hv, _⟩ := procOnce_frame h
    rw [hv hc.1]
    exact hw

section Solve
variable {n : ℕ} {md pd : α → ℕ} {L : GainSolver α} {P : Callbacks n md pd} {dt : α} {cfg : Config α} {o : Obj n α}
  {t0 : α} {sc : Scratch n (fun i => md (timeAt t0 dt i)) (fun i => pd (timeAt t0 dt i)) α} {x0 : Vec n α}
  {init : VarL n α}

theorem toVar_safe {v : VarL n α} (hd : DimsOk md pd t0 dt v) (hs : v.ss.length = v.us.length)
    (hn : v.nus.length = v.us.length) (hp : v.Safe) :
    (v.toVar : Var n (fun i => md (timeAt t0 dt i)) (fun i => pd (timeAt t0 dt i)) α).Safe v.us.length := by
  constructor
  · intro i hi j
    have h1 : i < v.ss.length := by omega
    have := DDP.inputAt_eq (m := fun i => pd (timeAt t0 dt i)) h1 (hd.2.1 i h1)
    exact hp.1 ⟨pd (timeAt t0 dt i), DDP.inputAt (m := fun i => pd (timeAt t0 dt i)) v.ss i⟩
      (this ▸ List.getElem_mem h1) j
  · intro i hi j
    have h1 : i < v.nus.length := by omega
    have := DDP.inputAt_eq (m := fun i => pd (timeAt t0 dt i)) h1 (hd.2.2 i h1)
    exact hp.2 ⟨pd (timeAt t0 dt i), DDP.inputAt (m := fun i => pd (timeAt t0 dt i)) v.nus i⟩
      (this ▸ List.getElem_mem h1) j

/-- The values set by `init_complementary_variable`. -/
theorem complInit_safe (F : FloatLaws α u) (hu : u ≤ 1 / 2048) (a : α) : leb (complInit a) 0 = false := by
  have u0 := F.u_nonneg
  obtain ⟨c, hc, c1, c2⟩ := (F.lit (1 / 100)).nonneg (by norm_num)
  push_cast at c1 c2
  have c0 : 0 < c := by nlinarith
  obtain ⟨e, he, e1, e2⟩ := (F.add_fin F.one hc).nonneg (by linarith)
  have e0 : 0 < e := by nlinarith
  have key : F.val (fmax a (lit (1 / 100))) = .nan ∨ F.val (fmax a (lit (1 / 100))) = .pinf ∨
      ∃ r, F.val (fmax a (lit (1 / 100))) = .fin r ∧ 0 < r := by
    unfold fmax
    split
    · exact .inr (.inr ⟨c, hc, c0⟩)
    · rename_i h
      rw [F.ltb_iff, hc] at h
      cases g : F.val a with
      | nan => exact .inl rfl
      | ninf => rw [g] at h; exact absurd trivial h
      | pinf => exact .inr (.inl rfl)
      | fin r => rw [g] at h; exact .inr (.inr ⟨r, rfl, lt_of_lt_of_le c0 (not_lt.1 h)⟩)
  unfold complInit
  rw [F.leb_zero_false]
  have hm := F.mul (1 + lit (1 / 100)) (fmax a (lit (1 / 100)))
  rw [he] at hm
  rcases key with g | g | ⟨r, g, hr⟩
  · rw [g] at hm; exact .inl hm
  · rw [g] at hm; exact .inr (.inl (hm.1 ⟨e0, trivial⟩))
  · obtain ⟨z, hz, z1, z2⟩ := (F.mul_fin he g).nonneg (by positivity)
    have : 0 < e * r := by positivity
    exact .inr (.inr ⟨z, hz, by nlinarith⟩)

theorem initCompl_safe (F : FloatLaws α u) (hu : u ≤ 1 / 2048) {k : ℕ} {v v' : VarL n α}
    (h : initCompl P t0 dt k v = .ok v') :
    (∀ i (hi : i < v'.ss.length), i < k → ∀ j : Fin (v'.ss[i]).1, leb ((v'.ss[i]).2 j) 0 = false) ∧
    (∀ i (hi : i < v'.nus.length), i < k → ∀ j : Fin (v'.nus[i]).1, leb ((v'.nus[i]).2 j) 0 = false) := by
  induction k generalizing v' with
  | zero => exact ⟨by intros; omega, by intros; omega⟩
  | succ k ih =>
    unfold initCompl at h
    rcases initCompl_cases (P := P) (t0 := t0) (dt := dt) k v with h1 | ⟨v1, h1⟩
    · rw [h1] at h; cases h
    · rw [h1] at h
      obtain ⟨p1, p2⟩ := ih h1
      dsimp only [Res.bind_ok] at h
      split at h
      · split at h
        · split at h
          · cases h
            dsimp only
            constructor
            · intro i hi hik
              rw [List.length_set] at hi
              by_cases hk : i = k
              · subst hk; rw [List.getElem_set_self]; exact fun j => complInit_safe F hu _
              · rw [List.getElem_set_ne (by omega)]; exact p1 i hi (by omega)
            · intro i hi hik
              rw [List.length_set] at hi
              by_cases hk : i = k
              · subst hk; rw [List.getElem_set_self]; exact fun j => complInit_safe F hu _
              · rw [List.getElem_set_ne (by omega)]; exact p2 i hi (by omega)
          · cases h
        · cases h
      · cases h

theorem startVar_safe (F : FloatLaws α u) (hu : u ≤ 1 / 2048) {v : VarL n α}
    (hp : cfg.initComplementary = true ∨ init.Safe)
    (hv : startVar P dt cfg t0 init = .ok v) (hl : LengthsOk cfg.horizon v) : v.Safe := by
  unfold startVar at hv
  split at hv
  · obtain ⟨h1, h2⟩ := initCompl_safe F hu hv
    obtain ⟨_, _, _, l4, l5⟩ := hl
    constructor
    · intro e he
      obtain ⟨i, hi, rfl⟩ := List.getElem_of_mem he
      exact h1 i hi (by omega)
    · intro e he
      obtain ⟨i, hi, rfl⟩ := List.getElem_of_mem he
      exact h2 i hi (by omega)
  · rename_i hc
    cases hv
    rcases hp with hp | hp
    · exact absurd hp hc
    · exact hp

/-- **C93.**  In every arithmetic of the standard model with unit roundoff up to 2^-11: if no slack or multiplier of the
initial variable is `<= 0`, or `init_complementary_variable` is set, then no slack or multiplier of `variable()` is `<= 0`
after `solve`, for every number of iterations and whatever the callbacks, the factorisation, `sum`, `dot`, … return. -/
theorem C93_positive (F : FloatLaws α u) (hu : u ≤ 1 / 2048) (hp : cfg.initComplementary = true ∨ init.Safe)
    {o' : Obj n α} {st : Status} (h : solve L P dt cfg o t0 sc x0 init = (o', .ok st)) : o'.var.Safe := by
  obtain ⟨v, w, hv, hc, hr, rfl⟩ := solve_ok h
  obtain ⟨st', ho, hst, _⟩ := runSolver_ok hr
  obtain ⟨hl, hd, _⟩ := (checkVariable_iff (md := md) (pd := pd) (t0 := t0) (dt := dt) (horizon := cfg.horizon) v).2.2.1 hc
  have hl' := hl
  obtain ⟨l1, l2, l3, l4, l5⟩ := hl
  have h0 : (initSolver (m := fun i => md (timeAt t0 dt i)) (p := fun i => pd (timeAt t0 dt i)) v (startEps cfg o) sc).var.Safe
      v.us.length := toVar_safe hd (by omega) (by omega) (startVar_safe F hu hp hv hl')
  have key : w.var.Safe v.us.length := by
    refine optLoop_rule (fun _ st w => w.var.Safe v.us.length) (fun st w => w.var.Safe v.us.length) h0 ?_
      (fun _ _ h => h) ho
    intro it st w w' st' _ _ h1 hp
    have := procOnce_safe F hu h1 hp
    split <;> exact this
  constructor
  · intro e he
    obtain ⟨i, hi, rfl⟩ := List.mem_map.1 he
    exact key.1 i (List.mem_range.1 hi)
  · intro e he
    obtain ⟨i, hi, rfl⟩ := List.mem_map.1 he
    exact key.2 i (List.mem_range.1 hi)

/-- **C93**, termination: `solve` terminates in every such arithmetic. -/
theorem C93_terminates (F : FloatLaws α u) (hu : u ≤ 1 / 2048) : (solve L P dt cfg o t0 sc x0 init).2 ≠ .diverge :=
  C36_solve_terminates (halvingLaw_float F hu)

/-- **C93**, definedness: `solve` returns a status (no exception, no undefined behaviour) for every warm start with lists
of the right lengths and dimensions and no negative slack or multiplier (recomputed first, and hence arbitrary, with
`init_complementary_variable`), provided no minimum or maximum of an empty vector is evaluated and the summary is not
printed for `max_iter ≤ 0`. -/
theorem C93_defined (F : FloatLaws α u) (hu : u ≤ 1 / 2048) (hl : LengthsOk cfg.horizon init)
    (hd : ∀ i (h : i < init.us.length), init.us[i].1 = md (timeAt t0 dt i))
    (hs : cfg.initComplementary = true ∨ (DimsOk md pd t0 dt init ∧ NonNeg init))
    (hne : NoEmpty cfg.horizon.toNat n (fun i => pd (timeAt t0 dt i)) cfg) (hpl : 0 < cfg.maxIter ∨ cfg.printLevel < 3) :
    ∃ o' st, solve L P dt cfg o t0 sc x0 init = (o', .ok st) := by
  have key : ∃ v, startVar P dt cfg t0 init = .ok v ∧ checkVariable md pd t0 dt cfg.horizon v = .ok () := by
    obtain ⟨l1, l2, l3, l4, l5⟩ := hl
    by_cases hi : cfg.initComplementary = true
    · obtain ⟨v, hv, d1, d2⟩ := initCompl_ok (P := P) (k := cfg.horizon.toNat) (by omega) (by omega) (by omega) (by omega)
        (fun i h _ => hd i h)
      have hsv : startVar P dt cfg t0 init = .ok v := by unfold startVar; rw [if_pos hi, hv]
      obtain ⟨e1, e2, e3, e4, e5, -⟩ := initCompl_length hv
      have hl' : LengthsOk cfg.horizon v := by
        refine ⟨?_, ?_, ?_, ?_, ?_⟩
        · rw [e1]; exact l1
        · rw [e2]; exact l2
        · rw [e3]; exact l3
        · rw [e4]; exact l4
        · rw [e5]; exact l5
      have hpos := startVar_safe F hu (.inl hi) hsv hl'
      refine ⟨v, hsv, (checkVariable_iff v).2.2.2 ⟨hl', ⟨?_, ?_, ?_⟩, ?_, ?_⟩⟩
      · intro i h
        simp only [e2] at h ⊢
        exact hd i h
      · intro i h; exact d1 i h (by omega)
      · intro i h; exact d2 i h (by omega)
      · intro e he j
        exact FloatLaws.not_neg_of_safe (hpos.1 e he j)
      · intro e he j
        exact FloatLaws.not_neg_of_safe (hpos.2 e he j)
    · rcases hs with hs | hs
      · exact absurd hs hi
      · refine ⟨init, by unfold startVar; rw [if_neg hi], (checkVariable_iff init).2.2.2 ⟨⟨l1, l2, l3, l4, l5⟩, hs.1, hs.2⟩⟩
  obtain ⟨v, hv, hc⟩ := key
  exact C58_returns (halvingLaw_float F hu) hv hc hne hpl

end Solve

/-- The hypotheses are met by doubles: 53 bits, rounding to nearest. -/
example : ∃ u : ℝ, u ≤ 1 / 2048 ∧ Nonempty (FloatLaws (Bin 53) u) :=
  ⟨(1 / 2) ^ 53, by norm_num, ⟨floatLaws_bin 53⟩⟩

/-- A rounded step length: the slack 1/10 with direction -1. -/
example : (alphaMax (α := Bin 53) (p := fun _ => 1) 1 (fun _ _ => lit (1 / 10)) (fun _ _ => -1)).x =
    .fin (3584865303386915 / 36028797018963968) := by decide +kernel

/-- **C93** (negative part) The bound on the unit roundoff matters: with 8 bits (the significand of bfloat16) there is a
positive slack that a full step of the fraction-to-boundary rule takes to zero. -/
theorem C93_low_precision :
    ∃ (v d : Var 1 (fun _ => 1) (fun _ => 1) (Bin 8)), v.Safe 1 ∧
      leb ((applyStep v d (alphaMax 1 v.s d.s) (alphaMax 1 v.nu d.nu)).s 0 0) 0 = true := by
  refine ⟨⟨fun _ _ => 0, fun _ _ => 0, fun _ _ => 0, fun _ _ => lit 209, fun _ _ => lit 209⟩,
    ⟨fun _ _ => 0, fun _ _ => 0, fun _ _ => 0, fun _ _ => lit (-816), fun _ _ => lit (-816)⟩, ⟨?_, ?_⟩, ?_⟩
  · intro i hi j; change leb (lit 209 : Bin 8) 0 = false; decide +kernel
  · intro i hi j; change leb (lit 209 : Bin 8) 0 = false; decide +kernel
  · decide +kernel

/-- A warm start in doubles: one step, one state, one input, one constraint. -/
def floatInit : VarL 1 (Bin 53) where
  xs := [fun _ => lit (1 / 10), fun _ => lit (1 / 3)]
  us := [⟨1, fun _ => lit (2 / 7)⟩]
  lams := [fun _ => 0, fun _ => 0]
  ss := [⟨1, fun _ => lit (1 / 10)⟩]
  nus := [⟨1, fun _ => lit (1 / 100)⟩]

/-- With doubles every such problem is solved without exception from this warm start, and slacks and multipliers stay
positive. -/
example (L : GainSolver (Bin 53)) (P : Callbacks 1 (fun _ : Bin 53 => 1) (fun _ => 1)) (o : Obj 1 (Bin 53))
    (sc : Scratch 1 (fun _ => 1) (fun _ => 1) (Bin 53)) (x0 : Vec 1 (Bin 53)) :
    ∃ o' st, solve L P (lit (1 / 100)) (defaultConfig 1 10) o 0 sc x0 floatInit = (o', .ok st) ∧ o'.var.Safe := by
  have hs : floatInit.Safe := by
    constructor <;>
    · intro e he j
      simp only [floatInit, List.mem_cons, List.not_mem_nil, or_false] at he
      subst he
      change leb (lit _ : Bin 53) 0 = false
      decide +kernel
  obtain ⟨o', st, h⟩ := C93_defined (L := L) (P := P) (dt := lit (1 / 100)) (cfg := defaultConfig 1 10) (o := o) (t0 := 0)
    (sc := sc) (x0 := x0) (init := floatInit) (floatLaws_bin 53) (by norm_num)
    (by simp [LengthsOk, floatInit, defaultConfig])
    (by intro i h; simp only [floatInit, List.length_cons, List.length_nil] at h; obtain rfl : i = 0 := by omega
        rfl)
    (.inr ⟨⟨by intro i h; simp only [floatInit, List.length_cons, List.length_nil] at h; obtain rfl : i = 0 := by omega
               rfl,
            by intro i h; simp only [floatInit, List.length_cons, List.length_nil] at h; obtain rfl : i = 0 := by omega
               rfl,
            by intro i h; simp only [floatInit, List.length_cons, List.length_nil] at h; obtain rfl : i = 0 := by omega
               rfl⟩,
      ⟨fun e he j => FloatLaws.not_neg_of_safe (hs.1 e he j), fun e he j => FloatLaws.not_neg_of_safe (hs.2 e he j)⟩⟩)
    ⟨fun _ i _ => one_pos, fun _ h => by cases h⟩ (.inl (by simp [defaultConfig]))
  exact ⟨o', st, h, C93_positive (floatLaws_bin 53) (by norm_num) (.inr hs) h⟩

end Nmpc.FMPC
