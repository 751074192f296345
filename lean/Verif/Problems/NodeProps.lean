import Verif.Problems.Node
import Mathlib.Analysis.Real.Pi.Bounds

/-!
# C106: the cart-pole nodes for every content of the parameter server and every sequence of callbacks
-/

namespace Nmpc

section NoExit
variable {n m : ℕ} {σ : Type} {C : Controller n m σ ℝ} {plant : ℝ → Vec n ℝ → Vec m ℝ → Vec n ℝ} {simDt endT : ℝ}
  {env : ℕ → List (Callback ℝ)} {x0 : Vec n ℝ} {c0 : σ} {I : σ → Prop}

theorem simLoopNE_false : simLoopNE false C plant simDt endT env x0 c0 = simLoop C plant simDt endT env x0 c0 := by
  have : simRoundNE false C plant simDt endT env = simRound C plant simDt endT env := by
    funext s
    simp only [simRoundNE, simRound, Bool.false_or]
    rfl
  simp only [simLoopNE, simLoop, this]

theorem spinOnce_total (hsolve : ∀ ref t x c, I c → ∃ c', C.solve ref t x c = .ok c' ∧ I c') :
    ∀ (cs : List (Callback ℝ)) (s : Sim n m σ ℝ), I s.ctrl → ∃ s', spinOnce C cs s = .ok s' ∧ I s'.ctrl ∧ s'.t = s.t
  | [], s, h => ⟨s, rfl, h, rfl⟩
  | c :: cs, s, h => by
    cases c with
    | mpc =>
      obtain ⟨c', h1, h2⟩ := hsolve (refPos s.target) s.t s.x s.ctrl h
      obtain ⟨s', h3⟩ := spinOnce_total hsolve cs { s with ctrl := c' } h2
      exact ⟨s', by simpa [spinOnce, runCallback, h1, Res.map] using h3⟩
    | dist f => exact spinOnce_total hsolve cs { s with distU := fun _ => f, distT := s.t + lit (1 / 2) } h
    | target p => exact spinOnce_total hsolve cs { s with target := some p } h

/-- The loop does not end with `no_exit`, nor with a step that is not positive. -/
theorem simLoopNE_diverge {noExit : Bool} (hend : 0 < endT) (h : noExit = true ∨ simDt ≤ 0) (h0 : I c0)
    (hsolve : ∀ ref t x c, I c → ∃ c', C.solve ref t x c = .ok c' ∧ I c') :
    simLoopNE noExit C plant simDt endT env x0 c0 = .diverge := by
  unfold simLoopNE loopR
  rw [loopM_diverges (fun s : Sim n m σ ℝ => I s.ctrl ∧ (noExit = true ∨ simDt ≤ 0 ∧ s.t ≤ 0))]
  · rintro s ⟨h1, h2⟩
    obtain ⟨s', h3, h4, h5⟩ := spinOnce_total hsolve (env s.k) (simOne C plant simDt s) h1
    refine ⟨s', ?_, h4, ?_⟩
    · unfold simRoundNE
      rw [if_pos, h3]
      rcases h2 with h2 | h2
      · simp [h2]
      · simp [show s.t < endT by linarith [h2.2]]
    · rcases h2 with h2 | h2
      · exact .inl h2
      · refine .inr ⟨h2.1, ?_⟩
        rw [h5]
        simp only [simOne]
        linarith [h2.1, h2.2]
  · refine ⟨h0, ?_⟩
    rcases h with h | h
    · exact .inl h
    · exact .inr ⟨h, le_rfl⟩

/-- If the first call of the controller fails, no simulation with a timer callback ends normally. -/
theorem not_ok_of_first_call (hdt : 0 < simDt) (hfail : ∀ ref t x c', C.solve ref t x c0 ≠ .ok c') {j : ℕ} (hj : j * simDt < endT)
    (hm : Callback.mpc ∈ env j) (s : Sim n m σ ℝ) : simLoop C plant simDt endT env x0 c0 ≠ .ok s := by
  intro h
  obtain ⟨he, hend⟩ := C105_exact hdt.le h
  obtain ⟨X, c, -, -, -, hr, -⟩ := he.lines
  have hk : j < s.k := by
    rw [he.time] at hend
    have : (j : ℝ) * simDt < s.k * simDt := hj.trans_le hend
    exact_mod_cast lt_of_mul_lt_mul_right this hdt.le
  have hr := hr s.k le_rfl
  have hne : simCalls simDt env X s.k ≠ [] := by
    intro h0
    unfold simCalls at h0
    rw [List.flatMap_eq_nil_iff] at h0
    have h1 := h0 j (List.mem_range.2 hk)
    obtain ⟨i, hi, hmi⟩ := List.getElem_of_mem hm
    unfold stepCalls at h1
    rw [List.filterMap_eq_nil_iff] at h1
    have h2 := h1 i (List.mem_range.2 hi)
    rw [List.getElem?_eq_getElem hi, hmi] at h2
    cases h2
  cases hq : simCalls simDt env X s.k with
  | nil => exact hne hq
  | cons q qs =>
    rw [hq] at hr
    simp only [runCalls] at hr
    cases hs : C.solve q.1 q.2.1 q.2.2 c0 with
    | ok c' => exact hfail _ _ _ _ hs
    | _ => rw [hs] at hr; cases hr

end NoExit

namespace Problems

/-! ## The constructor -/

/-- **C106** The constructor has defined behaviour exactly if every list on the parameter server has at least as many entries as the
weight vector it is mapped to, the time step is not zero and the quotient fits an `int`. -/
theorem C106_setup_defined (q : NodeParams) :
    (∃ S, nodeSetup q = .ok S) ↔
      (∀ l, q.runningX = some l → 4 ≤ l.length) ∧ (∀ l, q.runningU = some l → 1 ≤ l.length) ∧
      (∀ l, q.terminalX = some l → 4 ≤ l.length) ∧ q.horizonDt.getD (1 / 100) ≠ 0 ∧
      -(2 : ℝ) ^ 31 - 1 < q.horizonDuration.getD 2 / q.horizonDt.getD (1 / 100) ∧
      q.horizonDuration.getD 2 / q.horizonDt.getD (1 / 100) < 2 ^ 31 := by
  have hv : ∀ {n : ℕ} (o : Option (List ℝ)) (x : Vec n ℝ), (∃ v, readVec o x = .ok v) ↔ ∀ l, o = some l → n ≤ l.length := by
    intro n o x
    cases o with
    | none => exact ⟨fun _ l hl => (by cases hl), fun _ => ⟨x, rfl⟩⟩
    | some l =>
      simp only [readVec, mapVec]
      by_cases h : n ≤ l.length
      · rw [dif_pos h]; exact ⟨fun _ l' hl => by cases hl; exact h, fun _ => ⟨_, rfl⟩⟩
      · rw [dif_neg h]; exact ⟨fun ⟨v, hv⟩ => (by cases hv), fun h' => absurd (h' l rfl) h⟩
  have hs : ∀ (o : Option ℝ) (x : ℝ), readScalar o x = o.getD x := by intro o x; cases o <;> rfl
  have hc : ∀ a b : ℝ, (∃ k, castQuot a b = .ok k) ↔ b ≠ 0 ∧ -(2 : ℝ) ^ 31 - 1 < a / b ∧ a / b < 2 ^ 31 := by
    intro a b
    unfold castQuot
    by_cases hb : b = 0
    · simp [hb]
    rw [if_neg hb]
    dsimp only
    have key : (-(2 ^ 31) ≤ (if 0 ≤ a / b then ⌊a / b⌋ else ⌈a / b⌉) ∧ (if 0 ≤ a / b then ⌊a / b⌋ else ⌈a / b⌉) < (2 : ℤ) ^ 31) ↔
        -(2 : ℝ) ^ 31 - 1 < a / b ∧ a / b < 2 ^ 31 := by
      split
      · rename_i h
        have h1 : (0 : ℤ) ≤ ⌊a / b⌋ := Int.floor_nonneg.2 h
        have e : ⌊a / b⌋ < (2 : ℤ) ^ 31 ↔ a / b < 2 ^ 31 := by rw [Int.floor_lt]; norm_num
        rw [e]
        refine ⟨fun ⟨_, h3⟩ => ⟨by linarith [show (0 : ℝ) < 2 ^ 31 by norm_num], h3⟩, fun ⟨_, h3⟩ => ⟨by linarith [show (0 : ℤ) < 2 ^ 31 by norm_num], h3⟩⟩
      · rename_i h
        have h0 : a / b < 0 := not_le.1 h
        have h1 : ⌈a / b⌉ ≤ (0 : ℤ) := Int.ceil_le.2 (by exact_mod_cast h0.le)
        have e : -(2 ^ 31 : ℤ) ≤ ⌈a / b⌉ ↔ -(2 : ℝ) ^ 31 - 1 < a / b := by
          rw [← Int.sub_one_lt_iff, Int.lt_ceil]
          norm_num
        rw [e]
        refine ⟨fun ⟨h2, _⟩ => ⟨h2, by linarith [show (0 : ℝ) < 2 ^ 31 by norm_num]⟩, fun ⟨h2, _⟩ => ⟨h2, by linarith [show (0 : ℤ) < 2 ^ 31 by norm_num]⟩⟩
    by_cases hr : -(2 ^ 31) ≤ (if 0 ≤ a / b then ⌊a / b⌋ else ⌈a / b⌉) ∧ (if 0 ≤ a / b then ⌊a / b⌋ else ⌈a / b⌉) < (2 : ℤ) ^ 31
    · rw [if_pos hr]
      exact ⟨fun _ => ⟨hb, key.1 hr⟩, fun _ => ⟨_, rfl⟩⟩
    · rw [if_neg hr]
      exact ⟨fun ⟨k, hk⟩ => (by cases hk), fun h => absurd (key.2 h.2) hr⟩
  have hb : ∀ {β γ : Type} (r : Res β) (f : β → Res γ), (∃ c, r.bind f = .ok c) ↔ ∃ b, r = .ok b ∧ ∃ c, f b = .ok c := by
    intro β γ r f
    cases r <;> simp [Res.bind]
  rw [← hv q.runningX (CartPole.default : CartPole ℝ).runningX, ← hv q.runningU (CartPole.default : CartPole ℝ).runningU,
    ← hv q.terminalX (CartPole.default : CartPole ℝ).terminalX, ← hc]
  unfold nodeSetup
  simp only [hb, hs, lit_real]
  constructor
  · rintro ⟨rx, h1, ru, h2, tx, h3, N, h4, -⟩
    exact ⟨⟨rx, h1⟩, ⟨ru, h2⟩, ⟨tx, h3⟩, ⟨N, by convert h4 using 2 <;> norm_num⟩⟩
  · rintro ⟨⟨rx, h1⟩, ⟨ru, h2⟩, ⟨tx, h3⟩, ⟨N, h4⟩⟩
    exact ⟨rx, h1, ru, h2, tx, h3, N, by convert h4 using 2 <;> norm_num, _, rfl⟩

/-- **C106** What the constructor takes over: entries present on the server, the leading entries of longer lists, defaults otherwise;
the number of steps is the quotient of duration and step, rounded towards zero. -/
theorem C106_setup_values (q : NodeParams) {S : NodeSetup} (h : nodeSetup q = .ok S) :
    S.p.m1 = q.cartMass.getD 1 ∧ S.p.m2 = q.poleMass.getD (1 / 2) ∧ S.p.l = q.poleLength.getD 2 ∧ S.dt = q.horizonDt.getD (1 / 100) ∧
    (∀ i : Fin 4, some (S.p.runningX i) = (q.runningX.getD [1 / 10, 1, 1 / 100, 1 / 10])[i.1]?) ∧
    (∀ i : Fin 1, some (S.p.runningU i) = (q.runningU.getD [1 / 1000])[i.1]?) ∧
    (∀ i : Fin 4, some (S.p.terminalX i) = (q.terminalX.getD [1 / 10, 1, 1 / 100, 1 / 10])[i.1]?) ∧
    |(S.horizon : ℝ)| ≤ |q.horizonDuration.getD 2 / S.dt| ∧ |q.horizonDuration.getD 2 / S.dt| < |(S.horizon : ℝ)| + 1 ∧
    0 ≤ (S.horizon : ℝ) * (q.horizonDuration.getD 2 / S.dt) := by
  have hs : ∀ (o : Option ℝ) (x : ℝ), readScalar o x = o.getD x := by intro o x; cases o <;> rfl
  have hv : ∀ {n : ℕ} (o : Option (List ℝ)) (l : List ℝ) (x v : Vec n ℝ), readVec o x = .ok v →
      (∀ i : Fin n, some (x i) = l[i.1]?) → ∀ i : Fin n, some (v i) = (o.getD l)[i.1]? := by
    intro n o l x v hv hx i
    cases o with
    | none => cases hv; exact hx i
    | some l' =>
      simp only [readVec, mapVec] at hv
      split at hv
      · cases hv
        simp
      · cases hv
  unfold nodeSetup at h
  simp only at h
  cases h1 : readVec q.runningX (CartPole.default : CartPole ℝ).runningX with
  | ok rx =>
    cases h2 : readVec q.runningU (CartPole.default : CartPole ℝ).runningU with
    | ok ru =>
      cases h3 : readVec q.terminalX (CartPole.default : CartPole ℝ).terminalX with
      | ok tx =>
        cases h4 : castQuot (readScalar q.horizonDuration (lit 2)) (readScalar q.horizonDt (lit (1 / 100))) with
        | ok N =>
          rw [h1, h2, h3, h4] at h
          simp only [Res.bind_ok] at h
          cases h
          have d1 := hv _ [1 / 10, 1, 1 / 100, 1 / 10] _ _ h1
            (by intro i; fin_cases i <;> norm_num [CartPole.default])
          have d2 := hv _ [1 / 1000] _ _ h2
            (by intro i; fin_cases i; norm_num [CartPole.default])
          have d3 := hv _ [1 / 10, 1, 1 / 100, 1 / 10] _ _ h3
            (by intro i; fin_cases i <;> norm_num [CartPole.default])
          have e1 : (lit (2 : ℚ) : ℝ) = 2 := by norm_num
          have e2 : (lit (1 / 100 : ℚ) : ℝ) = 1 / 100 := by norm_num
          refine ⟨?_, ?_, ?_, ?_, d1, d2, d3, ?_⟩
          · simp only [hs]; norm_num [CartPole.default]
          · simp only [hs]; norm_num [CartPole.default]
          · simp only [hs]; norm_num [CartPole.default]
          · simp only [hs, e2]
          · simp only [hs, e1, e2] at h4 ⊢
            generalize q.horizonDuration.getD 2 = a at h4 ⊢
            generalize q.horizonDt.getD (1 / 100) = b at h4 ⊢
            unfold castQuot at h4
            split at h4
            · cases h4
            dsimp only at h4
            have hN : N = if 0 ≤ a / b then ⌊a / b⌋ else ⌈a / b⌉ := by
              generalize (if 0 ≤ a / b then ⌊a / b⌋ else ⌈a / b⌉) = k at h4 ⊢
              split at h4
              · exact (Res.ok.inj h4).symm
              · cases h4
            subst hN
            split
            · rename_i hab
              have g1 := Int.floor_le (a / b)
              have g2 := Int.lt_floor_add_one (a / b)
              have g3 : (0 : ℝ) ≤ ⌊a / b⌋ := by exact_mod_cast Int.floor_nonneg.2 hab
              rw [abs_of_nonneg g3, abs_of_nonneg hab]
              exact ⟨g1, g2, mul_nonneg g3 hab⟩
            · rename_i hab
              have hab := not_le.1 hab
              have g1 := Int.le_ceil (a / b)
              have g2 := Int.ceil_lt_add_one (a / b)
              have g3 : ((⌈a / b⌉ : ℤ) : ℝ) ≤ 0 := by exact_mod_cast Int.ceil_le.2 (by exact_mod_cast hab.le)
              rw [abs_of_nonpos g3, abs_of_neg hab]
              exact ⟨by linarith, by linarith, mul_nonneg_of_nonpos_of_nonpos g3 hab.le⟩
        | _ => rw [h1, h2, h3, h4] at h; cases h
      | _ => rw [h1, h2, h3] at h; cases h
    | _ => rw [h1, h2] at h; cases h
  | _ => rw [h1] at h; cases h

/-! ## The runs -/

section Runs
variable {L : LLT ℝ} {as : List ℝ} {scr : ℕ → DDP.Scratch 4 (fun _ => 1) ℝ} {o : DDP.Obj 4 ℝ} {q : NodeParams} {S : NodeSetup}

theorem ddp_ctrl_ok (hN : 0 < S.horizon) (ref t : ℝ) (x : Vec 4 ℝ) (c : DDP.SimCtrl 4 1 ℝ)
    (hc : DDP.CtrlOk (fun _ => lit (-15)) (fun _ => lit 15) S.horizon c) :
    ∃ c', (ddpController L as scr S).solve ref t x c = .ok c' ∧ DDP.CtrlOk (fun _ => lit (-15)) (fun _ => lit 15) S.horizon c' := by
  have h := DDP.timerCallback_ok (L := L) (P := fun ref => S.p.ddp (fun _ => ref) S.dt) (dt := S.dt) (scr := scr)
    (lo := fun _ => lit (-15)) (hi := fun _ => lit 15) (cfg := { DDP.defaultConfig as 3 S.horizon with withConstraint := true })
    hN (by norm_num [DDP.defaultConfig]) (by norm_num [DDP.defaultConfig]) rfl (fun _ => by norm_num) ref t x c hc
  exact h

theorem ddp_init_ok (hN : 0 < S.horizon) :
    DDP.CtrlOk (fun _ => lit (-15)) (fun _ => lit 15) S.horizon (DDP.simCtrlInit (n := 4) 1 S.horizon.toNat o) :=
  ⟨fun _ => by norm_num [DDP.simCtrlInit], by simp only [DDP.simCtrlInit, List.length_replicate]; omega,
    fun q hq => by rw [(List.mem_replicate.1 hq).2]⟩

/-- **C106** The DDP node for every content of the parameter server on which the constructor is defined, and every sequence of
callbacks: with a positive number of steps, a positive `sim_dt` and without `no_exit` the run ends normally after `⌈10 / sim_dt⌉`
steps, the simulation is the specified one, and all inputs are within ±15 N. -/
theorem C106_ddp (hS : nodeSetup q = .ok S) (hN : 0 < S.horizon) (hdt : 0 < q.simDt.getD (2 / 1000)) (hne : q.noExit ≠ some true)
    (env : ℕ → List (Callback ℝ)) :
    ∃ s, ddpNode L as scr o q env = .ok s ∧ s.k = ⌈10 / q.simDt.getD (2 / 1000)⌉₊ ∧
      SimExact (ddpController L as scr S) (fun _ x u => S.p.stateEq (q.simDt.getD (2 / 1000)) x u) (q.simDt.getD (2 / 1000)) env
        nodeStart (DDP.simCtrlInit 1 S.horizon.toNat o) s ∧
      ∀ l ∈ s.log, |l.u 0| ≤ 15 := by
  have hst : q.step = q.simDt.getD (2 / 1000) := by unfold NodeParams.step; cases q.simDt <;> norm_num [readScalar]
  have hx : readScalar q.noExit false = false := by
    cases h : q.noExit with
    | none => rfl
    | some b => cases b with
      | false => rfl
      | true => exact absurd h hne
  unfold ddpNode
  rw [hS, Res.bind_ok, if_neg (by omega), hx, simLoopNE_false, hst]
  obtain ⟨s, h1, h2, h3, -⟩ := simLoop_ok (C := ddpController L as scr S)
    (plant := fun _ x u => S.p.stateEq (q.simDt.getD (2 / 1000)) x u) (endT := lit 10) (env := env) (x0 := nodeStart)
    (c0 := DDP.simCtrlInit 1 S.horizon.toNat o) (I := DDP.CtrlOk (fun _ => lit (-15)) (fun _ => lit 15) S.horizon)
    (U := fun _ u => ∀ j, (lit (-15) : ℝ) ≤ u j ∧ u j ≤ lit 15) hdt (ddp_init_ok hN) (ddp_ctrl_ok hN) (fun c _ hc => hc.bounds)
  refine ⟨s, h1, by rw [h2]; norm_num, (C105_exact hdt.le h1).1, fun l hl => ?_⟩
  obtain ⟨X, u, d, -, -, hlog⟩ := h3.lines
  obtain ⟨i, hi, rfl⟩ := List.getElem_of_mem hl
  have hi' := hi
  rw [h3.len] at hi'
  obtain ⟨g1, -, g3, -⟩ := hlog i hi'
  rw [List.getElem?_eq_getElem hi] at g1
  rw [Option.some.inj g1, abs_le]
  have := g3 0
  norm_num at this
  exact this

/-- **C106** The DDP node never ends with `no_exit` or a `sim_dt` that is not positive. -/
theorem C106_ddp_endless (hS : nodeSetup q = .ok S) (hN : 0 < S.horizon)
    (h : q.noExit = some true ∨ q.simDt.getD (2 / 1000) ≤ 0) (env : ℕ → List (Callback ℝ)) :
    ddpNode L as scr o q env = .diverge := by
  have hst : q.step = q.simDt.getD (2 / 1000) := by unfold NodeParams.step; cases q.simDt <;> norm_num [readScalar]
  unfold ddpNode
  rw [hS, Res.bind_ok, if_neg (by omega), hst]
  exact simLoopNE_diverge (by norm_num) (h.imp (fun h => by rw [h]; rfl) id) (ddp_init_ok hN) (ddp_ctrl_ok hN)

/-- **C106** If the duration of the horizon is smaller than its time step the number of steps is zero, and the first timer callback
has undefined behaviour (`u_list[0]` of an empty list); no run with a timer callback ends normally. -/
theorem C106_ddp_zero (hS : nodeSetup q = .ok S) (hN : S.horizon = 0) (hdt : 0 < q.simDt.getD (2 / 1000)) (hne : q.noExit ≠ some true) :
    (∀ ref t x, (ddpController L as scr S).solve ref t x (DDP.simCtrlInit 1 S.horizon.toNat o) = .ub) ∧
    ∀ (env : ℕ → List (Callback ℝ)) (j : ℕ), j * q.simDt.getD (2 / 1000) < 10 → Callback.mpc ∈ env j →
      ∀ s, ddpNode L as scr o q env ≠ .ok s := by
  have hub : ∀ ref t x, (ddpController L as scr S).solve ref t x (DDP.simCtrlInit 1 S.horizon.toNat o) = .ub := by
    intro ref t x
    have hus : (DDP.simCtrlInit (n := 4) 1 S.horizon.toNat o).us = [] := by simp [DDP.simCtrlInit, hN]
    have hd : DDP.DimsOk (α := ℝ) (fun _ => 1) t S.dt (DDP.simCtrlInit (n := 4) 1 S.horizon.toNat o).us := by
      rw [hus]; intro i hi; simp at hi
    have hlen : ((DDP.simCtrlInit (n := 4) 1 S.horizon.toNat o).us.length : ℤ) =
        ({ DDP.defaultConfig as 3 S.horizon with withConstraint := true } : DDP.Config ℝ).horizon := by
      rw [hus, show ({ DDP.defaultConfig as 3 S.horizon with withConstraint := true } : DDP.Config ℝ).horizon = S.horizon from rfl, hN]
      rfl
    obtain ⟨b, hb⟩ := DDP.C66_defined (L := L) (P := S.p.ddp (fun _ => ref) S.dt)
      (lim := some fun _ => (fun _ => lit (-15), fun _ => lit 15)) (dt := S.dt)
      (cfg := { DDP.defaultConfig as 3 S.horizon with withConstraint := true })
      (o := (DDP.simCtrlInit (n := 4) 1 S.horizon.toNat o).obj) (t0 := t)
      (scratch := scr 0) (x0 := x) hlen hd
      (by norm_num [DDP.defaultConfig]) (by norm_num [DDP.defaultConfig]) rfl (fun _ => rfl)
    have htr := DDP.C11_trajectory (L := L) (P := S.p.ddp (fun _ => ref) S.dt)
      (lim := some fun _ => (fun _ => lit (-15), fun _ => lit 15)) (dt := S.dt)
      (cfg := { DDP.defaultConfig as 3 S.horizon with withConstraint := true })
      (o := (DDP.simCtrlInit (n := 4) 1 S.horizon.toNat o).obj) (t0 := t)
      (scratch := scr 0) (x0 := x) hlen hd
    have hl := htr.lenU
    rw [hus] at hl
    show DDP.timerCallback _ _ _ _ _ _ _ _ _ _ = _
    unfold DDP.timerCallback
    dsimp only
    have hcalls : (DDP.simCtrlInit (n := 4) 1 S.horizon.toNat o).calls = 0 := rfl
    rw [hcalls, hb, Res.bind_ok, List.getElem?_eq_none]
    rw [hus, hl]
    rfl
  refine ⟨hub, fun env j hj hm s => ?_⟩
  have hst : q.step = q.simDt.getD (2 / 1000) := by unfold NodeParams.step; cases q.simDt <;> norm_num [readScalar]
  have hx : readScalar q.noExit false = false := by
    cases h : q.noExit with
    | none => rfl
    | some b => cases b with
      | false => rfl
      | true => exact absurd h hne
  unfold ddpNode
  rw [hS, Res.bind_ok, if_neg (by omega), hx, simLoopNE_false, hst]
  exact not_ok_of_first_call hdt (fun ref t x c' h => by rw [hub] at h; cases h) (by rw [lit_real]; exact_mod_cast hj) hm s

/-- **C106** A negative number of steps makes both nodes throw. -/
theorem C106_negative {LG : FMPC.GainSolver ℝ} {scr' : ℕ → FMPC.Scratch 4 (fun _ => 1) (fun _ => 4) ℝ} {K : Mat 1 4 ℝ} {xp : Vec 4 ℝ}
    {o' : FMPC.Obj 4 ℝ} (hS : nodeSetup q = .ok S) (hN : S.horizon < 0) (env : ℕ → List (Callback ℝ)) :
    ddpNode L as scr o q env = .otherException ∧ fmpcNode LG scr' K xp o' q env = .otherException := by
  unfold ddpNode fmpcNode
  rw [hS]
  simp only [Res.bind_ok]
  rw [if_pos hN, if_pos hN]
  exact ⟨rfl, rfl⟩

end Runs

section FmpcRuns
variable {L : FMPC.GainSolver ℝ} {scr : ℕ → FMPC.Scratch 4 (fun _ => 1) (fun _ => 4) ℝ} {K : Mat 1 4 ℝ} {xp : Vec 4 ℝ}
  {o : FMPC.Obj 4 ℝ} {q : NodeParams} {S : NodeSetup}

theorem fmpc_noEmpty : FMPC.NoEmpty (FMPC.defaultConfig S.horizon 5 : FMPC.Config ℝ).horizon.toNat 4 (fun _ => 4)
    (FMPC.defaultConfig S.horizon 5 : FMPC.Config ℝ) :=
  ⟨fun _ _ _ => by norm_num, by simp [FMPC.defaultConfig]⟩

theorem fmpc_ctrl_ok (hN : 0 < S.horizon) (ref t : ℝ) (x : Vec 4 ℝ) (c : FMPC.SimCtrl 4 1 ℝ) (hc : FMPC.CtrlOk 1 4 S.horizon c) :
    ∃ c', (fmpcController L scr S).solve ref t x c = .ok c' ∧ FMPC.CtrlOk 1 4 S.horizon c' := by
  have h := FMPC.timerCallback_ok (L := L) (P := fun ref => S.p.fmpc (fun _ => ref) S.dt) (dt := S.dt) (scr := scr)
    (cfg := FMPC.defaultConfig S.horizon 5) hN (by norm_num [FMPC.defaultConfig]) fmpc_noEmpty ref t x c hc
  exact h

theorem fmpc_init_ok (hN : 0 < S.horizon) : FMPC.CtrlOk 1 4 S.horizon (FMPC.simCtrlInit 1 4 S.horizon.toNat K xp o) := by
  have hw := FMPC.warmOk_reset (n := 4) (m := 1) (p := 4) S.horizon.toNat (0 : ℝ) 0 0 1 1
  rw [show ((S.horizon.toNat : ℕ) : ℤ) = S.horizon by omega] at hw
  exact ⟨hw, FMPC.pos_reset _ _ _ _ one_pos one_pos⟩

/-- **C106** The FMPC node, in the same way. -/
theorem C106_fmpc (hS : nodeSetup q = .ok S) (hN : 0 < S.horizon) (hdt : 0 < q.simDt.getD (2 / 1000)) (hne : q.noExit ≠ some true)
    (env : ℕ → List (Callback ℝ)) :
    ∃ s, fmpcNode L scr K xp o q env = .ok s ∧ s.k = ⌈10 / q.simDt.getD (2 / 1000)⌉₊ ∧
      SimExact (fmpcController L scr S) (fun _ x u => S.p.stateEq (q.simDt.getD (2 / 1000)) x u) (q.simDt.getD (2 / 1000)) env
        nodeStart (FMPC.simCtrlInit 1 4 S.horizon.toNat K xp o) s ∧ s.ctrl.var.Pos := by
  have hst : q.step = q.simDt.getD (2 / 1000) := by unfold NodeParams.step; cases q.simDt <;> norm_num [readScalar]
  have hx : readScalar q.noExit false = false := by
    cases h : q.noExit with
    | none => rfl
    | some b => cases b with
      | false => rfl
      | true => exact absurd h hne
  unfold fmpcNode
  rw [hS, Res.bind_ok, if_neg (by omega), hx, simLoopNE_false, hst]
  obtain ⟨s, h1, h2, -, h4⟩ := simLoop_ok (C := fmpcController L scr S)
    (plant := fun _ x u => S.p.stateEq (q.simDt.getD (2 / 1000)) x u) (endT := lit 10) (env := env) (x0 := nodeStart)
    (c0 := FMPC.simCtrlInit 1 4 S.horizon.toNat K xp o) (I := FMPC.CtrlOk 1 4 S.horizon)
    (U := fun _ _ => True) hdt (fmpc_init_ok hN) (fmpc_ctrl_ok hN) (fun _ _ _ => trivial)
  exact ⟨s, h1, by rw [h2]; norm_num, (C105_exact hdt.le h1).1, h4.pos⟩

/-- **C106** The FMPC node never ends with `no_exit` or a `sim_dt` that is not positive. -/
theorem C106_fmpc_endless (hS : nodeSetup q = .ok S) (hN : 0 < S.horizon)
    (h : q.noExit = some true ∨ q.simDt.getD (2 / 1000) ≤ 0) (env : ℕ → List (Callback ℝ)) :
    fmpcNode L scr K xp o q env = .diverge := by
  have hst : q.step = q.simDt.getD (2 / 1000) := by unfold NodeParams.step; cases q.simDt <;> norm_num [readScalar]
  unfold fmpcNode
  rw [hS, Res.bind_ok, if_neg (by omega), hst]
  exact simLoopNE_diverge (by norm_num) (h.imp (fun h => by rw [h]; rfl) id) (fmpc_init_ok hN) (fmpc_ctrl_ok hN)

/-- **C106** Zero steps: as for the DDP node. -/
theorem C106_fmpc_zero (hS : nodeSetup q = .ok S) (hN : S.horizon = 0) (hdt : 0 < q.simDt.getD (2 / 1000)) (hne : q.noExit ≠ some true) :
    (∀ ref t x, (fmpcController L scr S).solve ref t x (FMPC.simCtrlInit 1 4 S.horizon.toNat K xp o) = .ub) ∧
    ∀ (env : ℕ → List (Callback ℝ)) (j : ℕ), j * q.simDt.getD (2 / 1000) < 10 → Callback.mpc ∈ env j →
      ∀ s, fmpcNode L scr K xp o q env ≠ .ok s := by
  have hub : ∀ ref t x, (fmpcController L scr S).solve ref t x (FMPC.simCtrlInit 1 4 S.horizon.toNat K xp o) = .ub := by
    intro ref t x
    have hw := FMPC.warmOk_reset (n := 4) (m := 1) (p := 4) S.horizon.toNat (0 : ℝ) 0 0 1 1
    rw [show ((S.horizon.toNat : ℕ) : ℤ) = S.horizon by omega] at hw
    have hp : (FMPC.resetVar 4 1 4 S.horizon.toNat (0 : ℝ) 0 0 1 1).Pos := FMPC.pos_reset _ _ _ _ one_pos one_pos
    have hnn : FMPC.NonNeg (FMPC.resetVar 4 1 4 S.horizon.toNat (0 : ℝ) 0 0 1 1) :=
      ⟨fun e he j => by simpa using (hp.1 e he j).le, fun e he j => by simpa using (hp.2 e he j).le⟩
    obtain ⟨o', st, hq⟩ := FMPC.C58_defined (L := L) (P := S.p.fmpc (fun _ => ref) S.dt) (dt := S.dt) (o := o) (t0 := t) (sc := scr 0)
      (x0 := x) (cfg := FMPC.defaultConfig S.horizon 5) hw.lengths (hw.dims t S.dt).1 (.inr ⟨hw.dims t S.dt, hnn⟩) fmpc_noEmpty
      (.inl (by norm_num [FMPC.defaultConfig]))
    have hsh := FMPC.solve_shape hq
    have hl : o'.var.us.length = 0 := by
      have := hsh.1.2.1
      rw [show (FMPC.defaultConfig S.horizon 5 : FMPC.Config ℝ).horizon = S.horizon from rfl, hN] at this
      omega
    obtain ⟨K', hK⟩ := FMPC.firstGain_ok hq
    show FMPC.timerCallback _ _ _ _ _ _ _ _ _ = _
    unfold FMPC.timerCallback
    simp only [FMPC.simCtrlInit]
    rw [hq]
    erw [hK]
    simp only [Res.bind_ok]
    rw [List.getElem?_eq_none (by omega)]
  refine ⟨hub, fun env j hj hm s => ?_⟩
  have hst : q.step = q.simDt.getD (2 / 1000) := by unfold NodeParams.step; cases q.simDt <;> norm_num [readScalar]
  have hx : readScalar q.noExit false = false := by
    cases h : q.noExit with
    | none => rfl
    | some b => cases b with
      | false => rfl
      | true => exact absurd h hne
  unfold fmpcNode
  rw [hS, Res.bind_ok, if_neg (by omega), hx, simLoopNE_false, hst]
  exact not_ok_of_first_call hdt (fun ref t x c' h => by rw [hub] at h; cases h) (by rw [lit_real]; exact_mod_cast hj) hm s

end FmpcRuns

/-! ## Services -/

/-- **C106** In a run driven by the timer and the advertised services, the reference is one of −5, 0, 5 and the disturbance one of 0,
±10, ±30 at every time. -/
theorem C106_services {env : ℕ → List (Callback ℝ)}
    (henv : ∀ k, ∀ c ∈ env k, c = .mpc ∨ ∃ name, service name = some c) (simDt : ℝ) (k i : ℕ) :
    disturbance simDt env k ∈ ({0, -10, 10, -30, 30} : Set ℝ) ∧
      lastTarget ((List.range k).flatMap env ++ (env k).take i) ∈ ({-5, 0, 5} : Set ℝ) := by
  have hsv : ∀ name c, service name = some c →
      (∃ f, c = .dist f ∧ f ∈ ({0, -10, 10, -30, 30} : Set ℝ)) ∨ ∃ p, c = .target p ∧ p ∈ ({-5, 0, 5} : Set ℝ) := by
    intro name c h
    unfold service at h
    split at h <;> cases h
    · exact .inl ⟨_, rfl, by norm_num⟩
    · exact .inl ⟨_, rfl, by norm_num⟩
    · exact .inl ⟨_, rfl, by norm_num⟩
    · exact .inl ⟨_, rfl, by norm_num⟩
    · exact .inr ⟨_, rfl, by norm_num⟩
    · exact .inr ⟨_, rfl, by norm_num⟩
    · exact .inr ⟨_, rfl, by norm_num⟩
  have hd : ∀ j f, Callback.dist f ∈ env j → f ∈ ({0, -10, 10, -30, 30} : Set ℝ) := by
    intro j f h
    rcases henv j _ h with h | ⟨name, h⟩
    · cases h
    · rcases hsv _ _ h with ⟨f', e, h'⟩ | ⟨p, e, _⟩
      · cases e; exact h'
      · cases e
  have ht : ∀ j p, Callback.target p ∈ env j → p ∈ ({-5, 0, 5} : Set ℝ) := by
    intro j f h
    rcases henv j _ h with h | ⟨name, h⟩
    · cases h
    · rcases hsv _ _ h with ⟨f', e, h'⟩ | ⟨p, e, h'⟩
      · cases e
      · cases e; exact h'
  constructor
  · unfold disturbance
    cases hl : (distReqs env k).getLast? with
    | none => exact .inl rfl
    | some q =>
      obtain ⟨j, f⟩ := q
      have hm := List.mem_of_getLast? hl
      unfold distReqs at hm
      obtain ⟨j', -, hm⟩ := List.mem_flatMap.1 hm
      obtain ⟨c, hc, hq⟩ := List.mem_filterMap.1 hm
      dsimp only
      split
      · cases c with
        | dist f' =>
          simp only [distReq, Option.some.injEq, Prod.mk.injEq] at hq
          obtain ⟨-, rfl⟩ := hq
          exact hd _ _ hc
        | _ => cases hq
      · exact .inl rfl
  · unfold lastTarget
    cases hl : ((((List.range k).flatMap env ++ (env k).take i)).filterMap targetReq).getLast? with
    | none => exact .inr (.inl rfl)
    | some p =>
      have hm := List.mem_of_getLast? hl
      obtain ⟨c, hc, hq⟩ := List.mem_filterMap.1 hm
      cases c with
      | target p' =>
        cases hq
        rcases List.mem_append.1 hc with h | h
        · obtain ⟨j', -, hm⟩ := List.mem_flatMap.1 h
          exact ht _ _ hm
        · exact ht _ _ (List.mem_of_mem_take h)
      | _ => cases hq

/-- **C106** With the services the cart of the DDP node is never pushed with more than 45 N. -/
theorem C106_ddp_force {L : LLT ℝ} {as : List ℝ} {scr : ℕ → DDP.Scratch 4 (fun _ => 1) ℝ} {o : DDP.Obj 4 ℝ} {q : NodeParams}
    {env : ℕ → List (Callback ℝ)} (henv : ∀ k, ∀ c ∈ env k, c = .mpc ∨ ∃ name, service name = some c) {S : NodeSetup}
    (hS : nodeSetup q = .ok S) (hN : 0 < S.horizon) (hdt : 0 < q.simDt.getD (2 / 1000)) (hne : q.noExit ≠ some true) :
    ∃ s, ddpNode L as scr o q env = .ok s ∧ ∀ l ∈ s.log, |l.u 0 + l.d 0| ≤ 45 := by
  obtain ⟨s, h1, -, h3, h4⟩ := C106_ddp (L := L) (as := as) (scr := scr) (o := o) hS hN hdt hne env
  refine ⟨s, h1, fun l hl => ?_⟩
  have hu := h4 l hl
  obtain ⟨X, c, -, -, -, -, hlog⟩ := h3.lines
  obtain ⟨i, hi, rfl⟩ := List.getElem_of_mem hl
  have hi' := hi
  rw [h3.len] at hi'
  have g := (hlog i hi').1
  rw [List.getElem?_eq_getElem hi] at g
  have hd := (C106_services henv (q.simDt.getD (2 / 1000)) i 0).1
  have : |disturbance (q.simDt.getD (2 / 1000)) env i| ≤ 30 := by
    rcases hd with h | h | h | h | h <;> rw [h] <;> norm_num
  have e : (s.log[i]).d 0 = disturbance (q.simDt.getD (2 / 1000)) env i := by rw [Option.some.inj g]
  rw [e]
  exact (abs_add_le _ _).trans (by linarith)

/-! ## The launch files -/

/-- **C106** With the parameters of the two launch files: 200 and 300 steps of 10 ms, the weight of the input 0.01 instead of the
default 0.001, everything else as by default. -/
theorem C106_launch :
    nodeSetup ddpLaunch = .ok { p := { CartPole.default with runningU := ![1 / 100] }, dt := 1 / 100, horizon := 200 } ∧
      nodeSetup fmpcLaunch = .ok { p := { CartPole.default with runningU := ![1 / 100] }, dt := 1 / 100, horizon := 300 } := by
  have h : ∀ N : ℕ, N < 2 ^ 31 → castQuot (N * (1 / 100)) (1 / 100) = .ok N := by
    intro N hN
    unfold castQuot
    rw [if_neg (by norm_num), show (N : ℝ) * (1 / 100) / (1 / 100) = ((N : ℤ) : ℝ) by push_cast; field_simp]
    dsimp only
    have h0 : (0 : ℝ) ≤ ((N : ℤ) : ℝ) := by exact_mod_cast Nat.zero_le N
    rw [if_pos h0, Int.floor_intCast, if_pos ⟨by omega, by exact_mod_cast hN⟩]
  have e : (fun i : Fin 4 => [(1 : ℝ) / 10, 1, 1 / 100, 1 / 10][i.1]'(by simp)) = ![1 / 10, 1, 1 / 100, 1 / 10] := by
    funext i; fin_cases i <;> rfl
  have h2 := h 200 (by norm_num)
  have h3 := h 300 (by norm_num)
  norm_num at h2 h3
  constructor
  · simp only [nodeSetup, ddpLaunch, readScalar, readVec, mapVec, lit_real]
    norm_num [CartPole.default, h2, e]
    funext i; fin_cases i; rfl
  · simp only [nodeSetup, fmpcLaunch, ddpLaunch, readScalar, readVec, mapVec, lit_real]
    norm_num [CartPole.default, h3, e]
    funext i; fin_cases i; rfl

/-- **C106** Hence both nodes, started by their launch files, perform 5000 steps for every sequence of callbacks. -/
theorem C106_launch_runs {L : LLT ℝ} {as : List ℝ} {scr : ℕ → DDP.Scratch 4 (fun _ => 1) ℝ} {o : DDP.Obj 4 ℝ}
    {LG : FMPC.GainSolver ℝ} {scr' : ℕ → FMPC.Scratch 4 (fun _ => 1) (fun _ => 4) ℝ} {K : Mat 1 4 ℝ} {xp : Vec 4 ℝ}
    {o' : FMPC.Obj 4 ℝ} (env : ℕ → List (Callback ℝ)) :
    (∃ s, ddpNode L as scr o ddpLaunch env = .ok s ∧ s.k = 5000 ∧ ∀ l ∈ s.log, |l.u 0| ≤ 15) ∧
      ∃ s, fmpcNode LG scr' K xp o' fmpcLaunch env = .ok s ∧ s.k = 5000 := by
  have e : ∀ q : ℝ, q = 2 / 1000 → ⌈10 / q⌉₊ = 5000 := by
    rintro q rfl
    rw [show (10 : ℝ) / (2 / 1000) = (5000 : ℕ) by norm_num]; exact Nat.ceil_natCast _
  have e1 : ddpLaunch.simDt.getD (2 / 1000) = 2 / 1000 := by norm_num [ddpLaunch]
  have e2 : fmpcLaunch.simDt.getD (2 / 1000) = 2 / 1000 := by norm_num [fmpcLaunch, ddpLaunch]
  constructor
  · obtain ⟨s, h1, h2, -, h4⟩ := C106_ddp (L := L) (as := as) (scr := scr) (o := o) C106_launch.1 (by norm_num)
      (by rw [e1]; norm_num) (by simp [ddpLaunch]) env
    exact ⟨s, h1, h2.trans (e _ e1), h4⟩
  · obtain ⟨s, h1, h2, -⟩ := C106_fmpc (L := LG) (scr := scr') (K := K) (xp := xp) (o := o') C106_launch.2 (by norm_num)
      (by rw [e2]; norm_num) (by simp [fmpcLaunch, ddpLaunch]) env
    exact ⟨s, h1, h2.trans (e _ e2)⟩

/-- A list that is too short on the parameter server makes the constructor read beyond its end. -/
example : ¬∃ S, nodeSetup { terminalX := some [1, 1, 1] } = .ok S := by
  rw [C106_setup_defined]
  rintro ⟨-, -, h, -⟩
  exact absurd (h _ rfl) (by simp)

/-- An empty parameter server gives the defaults with 200 steps. -/
example : ∃ S, nodeSetup {} = .ok S ∧ S.horizon = 200 ∧ S.p.runningU 0 = 1 / 1000 := by
  obtain ⟨S, hS⟩ := (C106_setup_defined {}).2 ⟨by simp, by simp, by simp, by norm_num, by norm_num, by norm_num⟩
  obtain ⟨-, -, -, hdt, -, hu, -, h1, h2, h3⟩ := C106_setup_values _ hS
  refine ⟨S, hS, ?_, by simpa using hu 0⟩
  rw [hdt] at h1 h2 h3
  norm_num at h1 h2 h3
  rw [abs_of_nonneg (by exact_mod_cast h3)] at h1 h2
  have g1 : S.horizon ≤ 200 := (Int.cast_le (R := ℝ)).1 (by push_cast; linarith)
  have g2 : (200 : ℤ) < S.horizon + 1 := (Int.cast_lt (R := ℝ)).1 (by push_cast; linarith)
  omega

/-- **C106** The names of the services say what they do: forces to the left are negative, to the right positive, small ones 10 N, large ones
30 N; the targets are at -5 m, 0 m and 5 m.  There are no other services. -/
theorem C106_service_names :
    (∀ left large : Bool, service ("/dist_" ++ (if left then "left" else "right") ++ (if large then "_large" else "_small")) =
      some (.dist ((if left then -1 else 1) * (if large then 30 else 10)))) ∧
    service "/target_pos_m5" = some (.target (-5)) ∧ service "/target_pos_0" = some (.target 0) ∧
    service "/target_pos_p5" = some (.target 5) ∧
    ∀ name c, service name = some c → name ∈ ["/dist_left_small", "/dist_right_small", "/dist_left_large", "/dist_right_large",
      "/target_pos_m5", "/target_pos_0", "/target_pos_p5"] := by
  refine ⟨?_, by simp [service], by simp [service], by simp [service], ?_⟩
  · rintro (_ | _) (_ | _) <;> simp [service]
  · intro name c h
    unfold service at h
    split at h <;> first | cases h; done | simp

/-- **C106** The simulations start at rest with the pole hanging down: the angle is π up to 10⁻¹⁹. -/
theorem C106_start : nodeStart 0 = 0 ∧ nodeStart 2 = 0 ∧ nodeStart 3 = 0 ∧ |nodeStart 1 - Real.pi| < 1 / 10 ^ 19 := by
  refine ⟨rfl, rfl, rfl, ?_⟩
  have h1 := Real.pi_gt_d20
  have h2 := Real.pi_lt_d20
  have h3 : nodeStart 1 = 3.14159265358979323846 := by
    show (lit (314159265358979323846 / 10 ^ 20) : ℝ) = _
    rw [lit_real]
    norm_num
  rw [h3, abs_lt]
  constructor <;> norm_num at * <;> linarith

end Problems

end Nmpc
