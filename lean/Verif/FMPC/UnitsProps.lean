import Verif.FMPC.Units
import Verif.FMPC.Mpc
import Verif.FMPC.Examples
import Verif.FMPC.Witness

/-!
# C139: FMPC without line search does not depend on units and coordinates
-/

namespace Nmpc.FMPC

set_option linter.unusedSectionVars false

open Matrix
open DDP (FDeriv LDeriv VDeriv timeAt)

namespace Units
variable {n : ℕ} {m p : ℕ → ℕ} (R : Units n)

/-- The user's variables in new units. -/
noncomputable def varL (v : VarL n ℝ) : VarL n ℝ where
  xs := v.xs.map R.into
  us := v.us.map fun e => ⟨e.1, (R.U e.1).v e.2⟩
  lams := v.lams.map R.X.w
  ss := v.ss.map fun e => ⟨e.1, (R.G e.1).v e.2⟩
  nus := v.nus.map fun e => ⟨e.1, (R.G e.1).w e.2⟩

/-- The problem in new units: dynamics `X f(t, x, u) + b`, constraints `D g(t, x, u)`, costs `c l(t, x, u)`, `c φ(t, x)` at
`x = X⁻¹ (y - b)`, `u = U⁻¹ v`; derivatives by the chain rule. -/
noncomputable def callbacks {md pd : ℝ → ℕ} (P : Callbacks n md pd) : Callbacks n md pd where
  stateEq t y u := R.into (P.stateEq t (R.back y) ((R.U _).vi u))
  runningCost t y u := R.c * P.runningCost t (R.back y) ((R.U _).vi u)
  terminalCost t y := R.c * P.terminalCost t (R.back y)
  ineqConst t y u := (R.G _).v (P.ineqConst t (R.back y) ((R.U _).vi u))
  stateEqDeriv t y u d := R.F (P.stateEqDeriv t (R.back y) ((R.U _).vi u) (R.Fi d))
  ineqConstDeriv t y u d := R.J (P.ineqConstDeriv t (R.back y) ((R.U _).vi u) (R.Ji d))
  runningCostDeriv t y u d := R.L (P.runningCostDeriv t (R.back y) ((R.U _).vi u) (R.Li d))
  terminalCostDeriv t y d := R.V (P.terminalCostDeriv t (R.back y) (R.Vi d))

theorem inputAt_map (f : (k : ℕ) → Vec k ℝ → Vec k ℝ) (hf : ∀ k, f k 0 = 0) (l : List (Σ k : ℕ, Vec k ℝ)) (i : ℕ) :
    DDP.inputAt (m := m) (l.map fun e => ⟨e.1, f e.1 e.2⟩) i = f (m i) (DDP.inputAt (m := m) l i) := by
  unfold DDP.inputAt
  rw [List.getElem?_map]
  cases l[i]? with
  | none => exact (hf _).symm
  | some e =>
    obtain ⟨k, u⟩ := e
    dsimp only [Option.map]
    by_cases hk : k = m i
    · subst hk; simp
    · rw [dif_neg hk, dif_neg hk]
      exact (hf _).symm

theorem toVar_units {N : ℕ} {v : VarL n ℝ} (hl : v.xs.length = N + 1) : (R.varL v).toVar = R.var N (v.toVar : Var n m p ℝ) := by
  have h1 : ∀ i, stateAt (v.xs.map R.into) i = if i ≤ N then R.into (stateAt v.xs i) else R.X.v (stateAt v.xs i) := by
    intro i
    unfold stateAt
    rw [List.getElem?_map]
    by_cases hi : i ≤ N
    · rw [if_pos hi, List.getElem?_eq_getElem (by omega)]
      rfl
    · rw [if_neg hi, List.getElem?_eq_none (by omega)]
      exact (Frame.v_zero _).symm
  have h2 : ∀ i, stateAt (v.lams.map R.X.w) i = R.X.w (stateAt v.lams i) := by
    intro i
    unfold stateAt
    rw [List.getElem?_map]
    cases v.lams[i]? with
    | none => exact (Frame.w_zero _).symm
    | some e => rfl
  unfold VarL.toVar var varL
  congr 1
  · funext i; exact h1 i
  · funext i; exact inputAt_map (fun k => (R.U k).v) (fun _ => Frame.v_zero _) _ _
  · funext i; exact h2 i
  · funext i; exact inputAt_map (fun k => (R.G k).v) (fun _ => Frame.v_zero _) _ _
  · funext i; exact inputAt_map (fun k => (R.G k).w) (fun _ => Frame.w_zero _) _ _

theorem out_units {N : ℕ} (v : Var n m p ℝ) : (R.var N v).out N = R.varL (v.out N) := by
  unfold Var.out varL
  simp only [List.map_map]
  congr 1
  refine List.map_congr_left fun i hi => ?_
  exact R.var_x (by rw [List.mem_range] at hi; omega) v

theorem anyNeg_map (f : (k : ℕ) → Vec k ℝ → Vec k ℝ) (hf : ∀ k x j, f k x j < 0 ↔ x j < 0) (l : List (Σ k : ℕ, Vec k ℝ)) :
    anyNeg (l.map fun e => ⟨e.1, f e.1 e.2⟩) = anyNeg l := by
  unfold anyNeg
  rw [List.any_map]
  congr 1
  funext e
  simp only [Function.comp]
  congr 1
  funext j
  rw [Bool.eq_iff_iff, ltb_real, ltb_real]
  exact hf _ _ _

theorem mul_lt_zero {a x : ℝ} (ha : 0 < a) : a * x < 0 ↔ x < 0 :=
  ⟨fun h => by by_contra hh; exact absurd h (not_lt.2 (mul_nonneg ha.le (not_lt.1 hh))), fun h => mul_neg_of_pos_of_neg ha h⟩

theorem G_v_neg (k : ℕ) (x : Vec k ℝ) (j : Fin k) : (R.G k).v x j < 0 ↔ x j < 0 := by rw [R.G_v, mul_lt_zero (R.hD k j)]

theorem G_w_neg (k : ℕ) (x : Vec k ℝ) (j : Fin k) : (R.G k).w x j < 0 ↔ x j < 0 := by
  rw [R.G_w, mul_lt_zero R.pos, mul_lt_zero (inv_pos.2 (R.hD k j))]

theorem checkVariable_units {md pd : ℝ → ℕ} {dt t0 : ℝ} (hz : ℤ) (v : VarL n ℝ) :
    checkVariable md pd t0 dt hz (R.varL v) = checkVariable md pd t0 dt hz v := by
  unfold checkVariable varL
  simp only [List.length_map]
  rw [anyNeg_map (fun k => (R.G k).v) R.G_v_neg, anyNeg_map (fun k => (R.G k).w) R.G_w_neg]
  simp only [List.map_map, Function.comp_def]

variable {md pd : ℝ → ℕ} {P : Callbacks n md pd} {dt t0 : ℝ}

theorem initCompl_units (hc : R.c = 1) (hD : ∀ k j, R.D k j = 1) (i : ℕ) (v : VarL n ℝ) :
    initCompl (R.callbacks P) t0 dt i (R.varL v) = (initCompl P t0 dt i v).map R.varL := by
  have hv : ∀ (k : ℕ) (x : Vec k ℝ), (R.G k).v x = x := fun k x => by funext j; rw [R.G_v, hD, one_mul]
  have hw : ∀ (k : ℕ) (x : Vec k ℝ), (R.G k).w x = x := fun k x => by funext j; rw [R.G_w, hD, hc, one_mul, inv_one, one_mul]
  induction i with
  | zero => rfl
  | succ i ih =>
    unfold initCompl
    rw [ih]
    cases initCompl P t0 dt i v with
    | ok w =>
      simp only [Res.map, Res.bind]
      rw [show (R.varL w).xs = w.xs.map R.into from rfl, show (R.varL w).us = w.us.map _ from rfl,
        show (R.varL w).ss = w.ss.map _ from rfl, show (R.varL w).nus = w.nus.map _ from rfl, List.length_map, List.length_map,
        List.getElem?_map, List.getElem?_map]
      cases w.xs[i]? with
      | none => rfl
      | some x =>
        cases w.us[i]? with
        | none => rfl
        | some e =>
          obtain ⟨k, u⟩ := e
          dsimp only [Option.map]
          split
          · by_cases hk : k = md (timeAt t0 dt i)
            · subst hk
              rw [dif_pos rfl, dif_pos rfl]
              dsimp only
              rw [show (R.callbacks P).ineqConst (timeAt t0 dt i) (R.into x) ((R.U _).v u) =
                (R.G _).v (P.ineqConst (timeAt t0 dt i) (R.back (R.into x)) ((R.U _).vi ((R.U _).v u))) from rfl,
                back_into, Frame.vi_v, hv]
              unfold varL
              simp only [List.map_set, hv, hw]
            · rw [dif_neg hk, dif_neg hk]
          · rfl
    | _ => rfl

theorem callbacks_overwrites (h : P.Overwrites) : (R.callbacks P).Overwrites where
  stateEqDeriv _ _ _ _ _ := by simp only [callbacks]; rw [h.stateEqDeriv]
  ineqConstDeriv _ _ _ _ _ := by simp only [callbacks]; rw [h.ineqConstDeriv]
  runningCostDeriv _ _ _ _ _ := by simp only [callbacks]; rw [h.runningCostDeriv]
  terminalCostDeriv _ _ _ _ := by simp only [callbacks]; rw [h.terminalCostDeriv]

variable {lin : GainSolver ℝ} {cfg : Config ℝ} {o o' : Obj n ℝ} {x0 : Vec n ℝ} {init : VarL n ℝ}
  {sc sc' : Scratch n (fun i => md (timeAt t0 dt i)) (fun i => pd (timeAt t0 dt i)) ℝ}

/-- When the options allow a change of units: no line search; the barrier parameter is not adapted (its bounds are absolute) or the unit
of the cost is kept; `kkt_error_thre` is not positive or lengths are kept; slacks and multipliers are not initialised (with absolute
margins) or their units are kept. -/
structure Allowed (cfg : Config ℝ) : Prop where
  search : cfg.enableLineSearch = false
  barrier : cfg.updateBarrierEps = false ∨ R.c = 1
  error : cfg.kktErrorThre ≤ 0 ∨ R.Isometric
  initial : cfg.initComplementary = false ∨ R.c = 1 ∧ ∀ k j, R.D k j = 1

/-- **C139** `FmpcSolver::solve` in other units and coordinates. -/
theorem _root_.Nmpc.FMPC.C139_units (R : Units n) (ha : R.Allowed cfg) (hL : ∀ i < init.us.length, lin.Fits (R.U (md (timeAt t0 dt i))))
    (hP : P.Overwrites) (hp : cfg.initComplementary = true ∨ init.Pos)
    (he : cfg.initComplementary = true ∨ cfg.updateBarrierEps = true ∨ o'.eps = R.c * o.eps)
    (hn : cfg.checkNan = false ∨ sc'.term.unset = sc.term.unset) :
    (solve lin (R.callbacks P) dt cfg o' t0 sc' (R.into x0) (R.varL init)).2 = (solve lin P dt cfg o t0 sc x0 init).2 ∧
    (solve lin (R.callbacks P) dt cfg o' t0 sc' (R.into x0) (R.varL init)).1.var = R.varL (solve lin P dt cfg o t0 sc x0 init).1.var ∧
    (cfg.updateBarrierEps = true ∨ (solve lin (R.callbacks P) dt cfg o' t0 sc' (R.into x0) (R.varL init)).1.eps =
      R.c * (solve lin P dt cfg o t0 sc x0 init).1.eps) ∧
    ∀ st, (solve lin P dt cfg o t0 sc x0 init).2 = .ok st →
      (solve lin (R.callbacks P) dt cfg o' t0 sc' (R.into x0) (R.varL init)).1.trace.map Trace.iter =
          (solve lin P dt cfg o t0 sc x0 init).1.trace.map Trace.iter ∧
        (R.Isometric → (solve lin (R.callbacks P) dt cfg o' t0 sc' (R.into x0) (R.varL init)).1.trace =
          (solve lin P dt cfg o t0 sc x0 init).1.trace) := by
  have heps : cfg.updateBarrierEps = true ∨ (if cfg.initComplementary = true then initialBarrierEps else o'.eps) =
      R.c * (if cfg.initComplementary = true then initialBarrierEps else o.eps) := by
    by_cases hi : cfg.initComplementary = true
    · rcases ha.initial with h | h
      · rw [h] at hi; cases hi
      · right; rw [if_pos hi, if_pos hi, h.1, one_mul]
    · rcases he with h | h | h
      · exact absurd h hi
      · exact .inl h
      · right; rw [if_neg hi, if_neg hi, h]
  have hst : ∀ v, (if cfg.initComplementary = true then initCompl P t0 dt cfg.horizon.toNat init else Res.ok init) = Res.ok v →
      LengthsOk cfg.horizon v → v.Pos := fun v hv hl => startVar_pos hp hv hl
  unfold solve
  dsimp only
  have hi : (if cfg.initComplementary = true then initCompl (R.callbacks P) t0 dt cfg.horizon.toNat (R.varL init)
      else Res.ok (R.varL init)) = (if cfg.initComplementary = true then initCompl P t0 dt cfg.horizon.toNat init
      else Res.ok init).map R.varL := by
    split
    · rename_i hic
      rcases ha.initial with h | h
      · rw [h] at hic; cases hic
      · exact R.initCompl_units h.1 h.2 _ _
    · rfl
  rw [hi]
  have hus : ∀ v, (if cfg.initComplementary = true then initCompl P t0 dt cfg.horizon.toNat init else Res.ok init) = Res.ok v →
      v.us = init.us := by
    intro v hv
    split at hv
    · exact (initCompl_length hv).2.1
    · cases hv; rfl
  revert hus hst
  generalize (if cfg.initComplementary = true then initCompl P t0 dt cfg.horizon.toNat init else Res.ok init) = e
  generalize (if cfg.initComplementary = true then initialBarrierEps else o'.eps) = eps' at *
  generalize (if cfg.initComplementary = true then initialBarrierEps else o.eps) = eps at *
  intro hst hus
  cases e with
  | ok v =>
    dsimp only [Res.map, Res.bind]
    rw [R.checkVariable_units]
    cases hck : checkVariable md pd t0 dt cfg.horizon v with
    | ok c =>
      dsimp only
      obtain ⟨hlen, hd, -⟩ := (checkVariable_iff (md := md) (pd := pd) (t0 := t0) (dt := dt) (horizon := cfg.horizon) v).2.2.1 hck
      have hlen' := hlen
      obtain ⟨l1, l2, l3, l4, l5⟩ := hlen
      have hS : (stagesOf P t0 dt v.us.length).Overwrites :=
        ⟨fun _ => hP.stateEqDeriv _, fun _ => hP.ineqConstDeriv _, fun _ => hP.runningCostDeriv _, hP.terminalCostDeriv _⟩
      have hpos : (initSolver (m := fun i => md (timeAt t0 dt i)) (p := fun i => pd (timeAt t0 dt i)) v eps sc).var.Pos v.us.length :=
        toVar_pos hd (by omega) (by omega) (hst v rfl hlen')
      have hw : R.WRel v.us.length cfg (initSolver (m := fun i => md (timeAt t0 dt i)) (p := fun i => pd (timeAt t0 dt i)) v eps sc)
          (initSolver (R.varL v) eps' sc') := by
        refine ⟨⟨?_, rfl, heps, hn⟩, rfl, fun _ => rfl⟩
        unfold initSolver solver
        dsimp only
        rw [R.toVar_units (N := v.us.length) (by omega)]
        exact ⟨fun _ _ => rfl, fun _ _ => rfl, fun _ _ => rfl, fun _ _ => rfl, fun _ _ => rfl⟩
      have hLv : ∀ i < v.us.length, lin.Fits (R.U (md (timeAt t0 dt i))) := by rw [hus v rfl]; exact hL
      have ho := R.runSolver_units (lin := lin) (x0 := x0) hLv ha.search ha.barrier ha.error hS hpos hw
      have hsl : (R.varL v).us.length = v.us.length := List.length_map _
      rw [hsl]
      change REq _ _ (runSolver lin v.us.length cfg (stagesOf (R.callbacks P) t0 dt v.us.length) (R.into x0) (initSolver (R.varL v) eps' sc')) at ho
      generalize runSolver lin v.us.length cfg (stagesOf P t0 dt v.us.length) x0 (initSolver v eps sc) = q at ho
      generalize runSolver lin v.us.length cfg (stagesOf (R.callbacks P) t0 dt v.us.length) (R.into x0)
        (initSolver (R.varL v) eps' sc') = q' at ho
      cases q <;> cases q' <;> first | exact False.elim ho | skip
      · rename_i a b
        obtain ⟨w, st⟩ := a
        obtain ⟨w', st'⟩ := b
        obtain ⟨h1, h2, h3⟩ := ho
        dsimp only at h1 h2 h3
        subst h1
        dsimp only
        refine ⟨rfl, ?_, h2.eps, fun _ _ => ⟨h3.1, h3.2⟩⟩
        rw [out_congr h2.var]
        exact R.out_units _
      all_goals exact ⟨rfl, rfl, heps, fun st h => by cases h⟩
    | _ => exact ⟨rfl, rfl, heps, fun st h => by cases h⟩
  | _ => exact ⟨rfl, rfl, heps, fun st h => by cases h⟩

end Units

section Loop
variable {n m p : ℕ} {lin : GainSolver ℝ} {P : Callbacks n (fun _ : ℝ => m) (fun _ => p)} {plant : ℝ → Vec n ℝ → Vec m ℝ → Vec n ℝ}
  {dt simDt endT : ℝ} {cfg : Config ℝ} {scr scr' : ℕ → Scratch n (fun _ => m) (fun _ => p) ℝ}

/-- Simulations in the old and in the new units: same rounds, times, statuses and iteration numbers; transformed states, inputs, plans. -/
structure Units.LoopRel (R : Units n) (s s' : Mpc n m ℝ) : Prop where
  k : s'.k = s.k
  t : s'.t = s.t
  x : s'.x = R.into s.x
  var : s'.var = R.varL s.var
  log : s'.log.map (fun e => (e.t, e.x, e.u, e.status, e.last.iter)) =
    s.log.map fun e => (e.t, R.into e.x, (R.U m).v e.u, e.status, e.last.iter)

/-- **C139**, closed loop: the simulation of the examples in other units and coordinates. -/
theorem C139_loop (R : Units n) (ha : R.Allowed cfg) (hL : lin.Fits (R.U m)) (hP : P.Overwrites)
    (hn : cfg.checkNan = false ∨ ∀ k, (scr' k).term.unset = (scr k).term.unset) {o o' : Obj n ℝ} {t0 : ℝ} {x0 : Vec n ℝ}
    {init : VarL n ℝ} (hp : cfg.initComplementary = true ∨ init.Pos)
    (he : cfg.initComplementary = true ∨ cfg.updateBarrierEps = true ∨ o'.eps = R.c * o.eps) :
    REq R.LoopRel (mpcLoop lin P plant dt simDt cfg scr endT o t0 x0 init)
      (mpcLoop lin (R.callbacks P) (fun t y v => R.into (plant t (R.back y) ((R.U m).vi v))) dt simDt cfg scr' endT o' t0 (R.into x0)
        (R.varL init)) := by
  have key := loopM_rel (f := mpcStep lin P plant dt simDt cfg scr endT)
    (g := mpcStep lin (R.callbacks P) (fun t y v => R.into (plant t (R.back y) ((R.U m).vi v))) dt simDt cfg scr' endT)
    (fun s s' => R.LoopRel s s' ∧ (cfg.initComplementary = true ∨ s.var.Pos) ∧
      (cfg.initComplementary = true ∨ cfg.updateBarrierEps = true ∨ s'.obj.eps = R.c * s.obj.eps)) (REq R.LoopRel) ?_
    (s := { k := 0, t := t0, x := x0, var := init, obj := o, log := [] })
    (t := { k := 0, t := t0, x := R.into x0, var := R.varL init, obj := o', log := [] })
    ⟨⟨rfl, rfl, rfl, rfl, rfl⟩, hp, he⟩
  · unfold mpcLoop loopR
    rcases key with ⟨h1, h2⟩ | ⟨r, r', h1, h2, h3⟩
    · rw [h1, h2]; exact trivial
    · rw [h1, h2]; exact h3
  · rintro s s' ⟨h, h1, h2⟩
    obtain ⟨k, t, x, var, obj, log⟩ := s
    obtain ⟨k', t', x', var', obj', log'⟩ := s'
    obtain ⟨hk, ht, hx, hv, hl⟩ := h
    dsimp only at hk ht hx hv hl h1 h2
    subst hk ht hx hv
    unfold mpcStep
    dsimp only
    split
    · have hq := C139_units (lin := lin) (P := P) (dt := dt) (t0 := t') (x0 := x) (init := var) (o := obj) (o' := obj')
        (sc := scr k') (sc' := scr' k') R ha (fun _ _ => hL) hP h1 h2 (hn.imp id fun h => h k')
      have h28 : ∀ o1 st, solve lin P dt cfg obj t' (scr k') x var = (o1, .ok st) → o1.var.Pos := fun _ _ h => (C28_positive h1 h).1
      generalize solve lin (R.callbacks P) dt cfg obj' t' (scr' k') (R.into x) (R.varL var) = q' at hq ⊢
      generalize solve lin P dt cfg obj t' (scr k') x var = q at hq h28 ⊢
      obtain ⟨o1, r⟩ := q
      obtain ⟨o2, r'⟩ := q'
      obtain ⟨q1, q2, q3, q4⟩ := hq
      dsimp only at q1 q2 q3 q4
      subst q1
      cases r' with
      | ok st =>
        obtain ⟨q4, -⟩ := q4 st rfl
        have hps := h28 o1 st rfl
        dsimp only
        unfold mpcNext
        rw [q2, show (R.varL o1.var).us = o1.var.us.map fun e => ⟨e.1, (R.U e.1).v e.2⟩ from rfl, List.getElem?_map]
        have hg : o2.trace.getLast?.map Trace.iter = o1.trace.getLast?.map Trace.iter := by
          rw [← List.getLast?_map, ← List.getLast?_map, q4]
        cases hu : o1.var.us[(0 : ℕ)]? with
        | none => exact .inr ⟨_, _, rfl, rfl, trivial⟩
        | some e =>
          obtain ⟨j, u⟩ := e
          dsimp only [Option.map]
          cases ht1 : o1.trace.getLast? with
          | none =>
            rw [ht1] at hg
            cases ht2 : o2.trace.getLast? with
            | none => exact .inr ⟨_, _, rfl, rfl, trivial⟩
            | some _ => rw [ht2] at hg; cases hg
          | some tr =>
            rw [ht1] at hg
            cases ht2 : o2.trace.getLast? with
            | none => rw [ht2] at hg; cases hg
            | some tr' =>
              rw [ht2] at hg
              have hit : tr'.iter = tr.iter := Option.some.inj hg
              dsimp only
              by_cases hj : j = m
              · subst hj
                rw [dif_pos rfl, dif_pos rfl]
                refine .inl ⟨_, _, rfl, rfl, ⟨rfl, rfl, ?_, rfl, ?_⟩, .inr hps, .inr q3⟩
                · dsimp only
                  rw [Units.back_into, Frame.vi_v]
                · dsimp only
                  rw [List.map_append, List.map_append, hl]
                  simp only [List.map_cons, List.map_nil, hit]
              · rw [dif_neg hj, dif_neg hj]
                exact .inr ⟨_, _, rfl, rfl, trivial⟩
      | _ => exact .inr ⟨_, _, rfl, rfl, trivial⟩
    · exact .inr ⟨_, _, rfl, rfl, ⟨rfl, rfl, rfl, rfl, hl⟩⟩

end Loop

/-- Exact solution of the gain systems fits every change of units. -/
theorem realGain_fits {c : ℝ} (hc : 0 < c) {k : ℕ} (g : Frame c k) : realGain.Fits g := by
  have hpd : ∀ {c : ℝ} (_ : 0 < c) (g : Frame c k) (A : Mat k k ℝ), A.PosDef → (c • (g.Miᵀ * A * g.Mi)).PosDef := by
    intro c hc g A hA
    refine PosDef.smul ?_ hc
    have := hA.conjTranspose_mul_mul_same (B := g.Mi) fun x y h => by
      have := congrArg (fun z => g.M *ᵥ z) h
      simpa [mulVec_mulVec, g.inv'] using this
    rwa [conjTranspose_eq_transpose_of_trivial] at this
  have hinv : ∀ A : Mat k k ℝ, (g.wv g A)⁻¹ = g.M * A⁻¹ * (c⁻¹ • g.Mᵀ) := by
    intro A
    rw [show g.wv g A = (c • g.Miᵀ) * A * g.Mi by rw [Frame.wv, Matrix.smul_mul, Matrix.smul_mul], Matrix.mul_inv_rev,
      Matrix.mul_inv_rev,
      inv_eq_right_inv g.inv, inv_eq_right_inv (A := c • g.Miᵀ) (B := c⁻¹ • g.Mᵀ)
        (by rw [Matrix.smul_mul, Matrix.mul_smul, smul_smul, mul_inv_cancel₀ hc.ne', one_smul, g.invT']), Matrix.mul_assoc]
  have hsol : ∀ (A : Mat k k ℝ) (b : Vec k ℝ), (g.wv g A)⁻¹ *ᵥ g.w b = g.v (A⁻¹ *ᵥ b) := by
    intro A b
    rw [hinv, Frame.w, Frame.v, mulVec_smul, Matrix.mul_smul, smul_mulVec, smul_smul, mul_inv_cancel₀ hc.ne', one_smul,
      mulVec_mulVec, mulVec_mulVec, Matrix.mul_assoc _ g.Mᵀ, g.invT, Matrix.mul_one]
  refine ⟨?_, fun A b _ => hsol A b, fun A b _ => hsol A b, fun A _ => ⟨A⁻¹, fun _ => rfl⟩, fun A _ => ⟨A⁻¹, fun _ => rfl⟩⟩
  intro A
  simp only [realGain]
  rw [decide_eq_decide]
  refine ⟨fun h => ?_, fun h => hpd hc g A h⟩
  have := hpd (inv_pos.2 hc) ⟨g.Mi, g.M, g.inv'⟩ _ h
  have e : c⁻¹ • (g.Mᵀ * g.wv g A * g.M) = A := g.wvi_wv g hc.ne' A
  rwa [e] at this

/-! ### Where units matter -/

/-- `x' = u²`, running cost `c (u²/2 - u)`. -/
def unitProblem (c : ℚ) : Callbacks 1 (fun _ : XQ => 1) (fun _ => 0) where
  stateEq _ _ u := fun _ => u 0 * u 0
  runningCost _ _ u := .fin c * (.fin (1 / 2) * (u 0 * u 0) - u 0)
  terminalCost _ _ := .fin 0
  ineqConst _ _ _ := fun _ => .fin 0
  stateEqDeriv _ _ u _ := { Fx := fun _ _ => .fin 0, Fu := fun _ _ => .fin 2 * u 0 }
  ineqConstDeriv _ _ _ _ := { C := fun _ _ => .fin 0, D := fun _ _ => .fin 0 }
  runningCostDeriv _ _ u _ :=
    { Lx := fun _ => .fin 0, Lu := fun _ => .fin c * (u 0 - .fin 1), Lxx := fun _ _ => .fin 0, Luu := fun _ _ => .fin c
      Lxu := fun _ _ => .fin 0 }
  terminalCostDeriv _ _ _ := { Vx := fun _ => .fin 0, Vxx := fun _ _ => .fin 0 }

def unitCall (cfg : Config XQ) (c x1 : ℚ) : Obj 1 XQ × Res Status :=
  solve diagGain (unitProblem c) (.fin 1) cfg freshObj (.fin 0) (scratchWith 0 [] (.fin 0) (.fin 1)) (fun _ => .fin 0)
    (initOf 0 0 x1 0 0 0 0 0)

def cfgUnit : Config XQ := { defaultConfig 1 1 with updateBarrierEps := false }
def cfgUnitLs : Config XQ := { cfgUnit with enableLineSearch := true, kktErrorThre := .fin 0 }

/-- The problem in another unit of the cost: with the default `kkt_error_thre` the solver reports success at once, without taking the
step to the minimiser `u = 1`. -/
theorem C139_threshold_fails :
    (seen (unitCall cfgUnit 1 0)).2.1 = [[.fin 1]] ∧ (unitCall cfgUnit 1 0).2 = .ok .maxIterationReached ∧
    (seen (unitCall cfgUnit (1 / 10 ^ 6) 0)).2.1 = [[.fin 0]] ∧ (unitCall cfgUnit (1 / 10 ^ 6) 0).2 = .ok .succeeded := by
  decide +kernel

/-- The solver before the line search of the first iteration, started at `x₁ = -1`. -/
def unitState (c : ℚ) :
    Solver 1 (fun i => (fun _ : XQ => 1) (timeAt (.fin 0) (.fin 1) i)) (fun i => (fun _ : XQ => 0) (timeAt (.fin 0) (.fin 1) i)) XQ :=
  (forwardPass 1 cfgUnitLs (fun _ => .fin 0) (backwardPass diagGain 1 cfgUnitLs (stagesOf (unitProblem c) (.fin 0) (.fin 1) 1)
    (traced 1 (fun _ => .fin 0) 1 (prepared 1 (stagesOf (unitProblem c) (.fin 0) (.fin 1) 1)
      (initSolver (initOf 0 0 (-1) 0 0 0 0 0) (.fin (1 / 10 ^ 4)) (scratchWith 0 [] (.fin 0) (.fin 1))) (.fin (1 / 10 ^ 4))))).2).2

/-- The step length the line search takes. -/
def unitStep (c : ℚ) : Res XQ :=
  (lineSearch 1 cfgUnitLs (stagesOf (unitProblem c) (.fin 0) (.fin 1) 1) (fun _ => .fin 0) (unitState c) (.fin 1)).map Prod.fst

/-- With the line search the step depends on the unit of the cost, even if `kkt_error_thre` is zero: the penalty of constraint
violations in the merit function is at least 1e-3.  The direction is the same in both units; in one the full step is taken, in the other
half of it. -/
theorem C139_line_search_fails :
    (unitState 1).delta.u 0 0 = .fin 1 ∧ (unitState (1 / 10 ^ 6)).delta.u 0 0 = .fin 1 ∧
    unitStep 1 = .ok (.fin 1) ∧ unitStep (1 / 10 ^ 6) = .ok (.fin (1 / 2)) := by
  refine ⟨by decide +kernel, by decide +kernel, ?_, ?_⟩
  · have h : (match setupMerit 1 cfgUnitLs (stagesOf (unitProblem 1) (.fin 0) (.fin 1) 1) (fun _ => .fin 0) (unitState 1) with
        | .ok mt => decide (lsStep (armijo 1 (stagesOf (unitProblem 1) (.fin 0) (.fin 1) 1) (fun _ => .fin 0)
            { unitState 1 with merit := mt }) (.fin 1) = .inr (.fin 1))
        | _ => false) = true := by decide +kernel
    unfold unitStep lineSearch
    rw [if_pos (by rfl)]
    generalize setupMerit 1 cfgUnitLs (stagesOf (unitProblem 1) (.fin 0) (.fin 1) 1) (fun _ => .fin 0) (unitState 1) = r at h ⊢
    cases r with
    | ok mt =>
      dsimp only [Res.bind_ok] at h ⊢
      rw [loopM_inr (of_decide_eq_true h)]
      rfl
    | _ => cases h
  · have h : (match setupMerit 1 cfgUnitLs (stagesOf (unitProblem (1 / 10 ^ 6)) (.fin 0) (.fin 1) 1) (fun _ => .fin 0)
          (unitState (1 / 10 ^ 6)) with
        | .ok mt =>
          let st := lsStep (armijo 1 (stagesOf (unitProblem (1 / 10 ^ 6)) (.fin 0) (.fin 1) 1) (fun _ => .fin 0)
            { unitState (1 / 10 ^ 6) with merit := mt })
          decide (st (.fin 1) = .inl (.fin (1 / 2)) ∧ st (.fin (1 / 2)) = .inr (.fin (1 / 2)))
        | _ => false) = true := by decide +kernel
    unfold unitStep lineSearch
    rw [if_pos (by rfl)]
    generalize setupMerit 1 cfgUnitLs (stagesOf (unitProblem (1 / 10 ^ 6)) (.fin 0) (.fin 1) 1) (fun _ => .fin 0)
      (unitState (1 / 10 ^ 6)) = r at h ⊢
    cases r with
    | ok mt =>
      dsimp only [Res.bind_ok] at h ⊢
      have h' := of_decide_eq_true h
      rw [loopM_inl h'.1, loopM_inr h'.2]
      rfl
    | _ => cases h

/-! ### Concrete cases -/

/-- First coordinate doubled, second quadrupled, then shifted; input times 5; constraints times 7; cost times 3. -/
noncomputable def exUnits : Units 2 where
  c := 3
  pos := by norm_num
  X := ⟨!![2, 0; 0, 4], !![1 / 2, 0; 0, 1 / 4], by ext i j; fin_cases i <;> fin_cases j <;> simp [Matrix.mul_apply, Fin.sum_univ_two]⟩
  b := ![1, -1]
  U _ := ⟨(5 : ℝ) • 1, (1 / 5 : ℝ) • 1, by simp [smul_smul]⟩
  D _ _ := 7
  hD _ _ := by norm_num

/-- A quarter turn of the state. -/
noncomputable def exTurn : Units 2 where
  c := 1
  pos := one_pos
  X := ⟨!![0, 1; -1, 0], !![0, -1; 1, 0], by ext i j; fin_cases i <;> fin_cases j <;> simp [Matrix.mul_apply, Fin.sum_univ_two]⟩
  b := 0
  U _ := ⟨1, 1, Matrix.one_mul _⟩
  D _ _ := 1
  hD _ _ := one_pos

/-- Fixed barrier parameter, ten iterations whatever the error. -/
noncomputable def exUnitsCfg : Config ℝ := { exCfg with kktErrorThre := 0, updateBarrierEps := false, checkNan := false }

section Cases
variable (o o' : Obj 2 ℝ) (x0 : Vec 2 ℝ)
  (sc sc' : Scratch 2 (fun i => (fun _ : ℝ => 1) (timeAt 0 1 i)) (fun i => (fun _ : ℝ => 2) (timeAt 0 1 i)) ℝ)

/-- The double integrator with box constraint, in other units, with a fixed barrier parameter and ten iterations. -/
example (he : o'.eps = 3 * o.eps) :
    (solve realGain (exUnits.callbacks box) 1 exUnitsCfg o' 0 sc' (exUnits.into x0) (exUnits.varL (exInit 2))).1.var =
      exUnits.varL (solve realGain box 1 exUnitsCfg o 0 sc x0 (exInit 2)).1.var :=
  (C139_units (P := box) (dt := 1) (t0 := 0) (x0 := x0) (cfg := exUnitsCfg) (o := o) (o' := o') (sc := sc) (sc' := sc') exUnits ⟨rfl, .inl rfl, .inl le_rfl, .inl rfl⟩
    (fun _ _ => realGain_fits exUnits.pos _) (dbl_overwrites 2 _) (.inr (exPos 2)) (.inr (.inr he)) (.inl rfl)).2.1

/-- The same with the state turned and the default configuration. -/
example (hn : sc'.term.unset = sc.term.unset) :
    (solve realGain (exTurn.callbacks box) 1 exCfg o' 0 sc' (exTurn.into x0) (exTurn.varL (exInit 2))).1.var =
      exTurn.varL (solve realGain box 1 exCfg o 0 sc x0 (exInit 2)).1.var := by
  have hi : exTurn.Isometric := by
    refine ⟨rfl, ?_, ?_, ?_⟩
    · ext i j; fin_cases i <;> fin_cases j <;> simp [exTurn, Matrix.mul_apply, Fin.sum_univ_two]
    · intro k; simp [exTurn]
    · intro k j; rfl
  exact (C139_units (P := box) (dt := 1) (t0 := 0) (x0 := x0) (cfg := exCfg) (o := o) (o' := o') (sc := sc) (sc' := sc') exTurn ⟨rfl, .inr rfl, .inr hi, .inl rfl⟩
    (fun _ _ => realGain_fits exTurn.pos _) (dbl_overwrites 2 _) (.inr (exPos 2)) (.inr (.inl rfl)) (.inr hn)).2.1

end Cases

end Nmpc.FMPC
