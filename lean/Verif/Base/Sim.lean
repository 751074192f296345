import Verif.Base.Scalar
import Verif.Base.Loop
import Mathlib.Algebra.Order.Floor.Ring
import Mathlib.Algebra.Order.Archimedean.Real.Basic

/-!
# The interactive cart-pole simulations

TestDDPCartPole.cpp 299-359, 362-418 and TestFmpcCartPole.cpp 319-388, 390-438 share their structure: a simulation loop advances the
state with a fixed time step, and `ros::spinOnce()` runs whatever callbacks are due (controller timer, disturbance services, target
services).  The controller is a parameter here; `Verif/DDP/Sim.lean` and `Verif/FMPC/Sim.lean` supply the two solvers.  `no_exit` has
its default value `false`; ROS shutdown, markers, files and `EXPECT`s are not modelled.
-/

set_option linter.unusedSectionVars false

namespace Nmpc

section Model
variable {α : Type} [Add α] [Sub α] [Mul α] [Div α] [Neg α] [Zero α] [One α] [FOps α]

/-- Callbacks run by `ros::spinOnce()`. -/
inductive Callback (α : Type) where
  /-- `mpcTimerCallback` -/
  | mpc
  /-- `distCallback` with a force -/
  | dist (f : α)
  /-- `targetPosCallback` with a position -/
  | target (p : α)

/-- What one simulation step did: time and state before it, control input and disturbance added. -/
structure SimLine (n m : ℕ) (α : Type) where
  t : α
  x : Vec n α
  u : Vec m α
  d : Vec m α

/-- `current_t_`, `current_x_`, `dist_t_`, `dist_u_`, `target_pos_` (`none` is NaN), the members of the controller, the number of steps
done and their record. -/
structure Sim (n m : ℕ) (σ α : Type) where
  k : ℕ
  t : α
  x : Vec n α
  distT : α
  distU : Vec m α
  target : Option α
  ctrl : σ
  log : List (SimLine n m α)

/-- `getRefPos(t)` (TestDDPCartPole.cpp 362-375, TestFmpcCartPole.cpp 389-402); the time is not used. -/
def refPos (target : Option α) : α :=
  match target with
  | none => 0
  | some p => p

/-- A controller: `solve ref t x` is the timer callback, `input x` the input applied at the state `x`. -/
structure Controller (n m : ℕ) (σ α : Type) where
  solve : α → α → Vec n α → σ → Res σ
  input : σ → Vec n α → Vec m α

variable {n m : ℕ} {σ : Type}

/-- Lines 326-331 of TestDDPCartPole.cpp, 347-357 of TestFmpcCartPole.cpp: one simulation step. -/
def simOne (C : Controller n m σ α) (plant : α → Vec n α → Vec m α → Vec n α) (simDt : α) (s : Sim n m σ α) : Sim n m σ α :=
  let d : Vec m α := if ltb s.distT s.t then fun _ => 0 else s.distU
  let u := C.input s.ctrl s.x
  { s with k := s.k + 1, t := s.t + simDt, x := plant s.t s.x (u + d), distU := d, log := s.log ++ [{ t := s.t, x := s.x, u := u, d := d }] }

/-- One callback: the controller (TestDDPCartPole.cpp 388-404, TestFmpcCartPole.cpp 404-418), `distCallback` (406-413, 420-427),
`targetPosCallback` (415-421, 429-435). -/
def runCallback (C : Controller n m σ α) (s : Sim n m σ α) : Callback α → Res (Sim n m σ α)
  | .mpc => (C.solve (refPos s.target) s.t s.x s.ctrl).map fun c => { s with ctrl := c }
  | .dist f => .ok { s with distU := fun _ => f, distT := s.t + lit (1 / 2) }
  | .target p => .ok { s with target := some p }

/-- `ros::spinOnce()`. -/
def spinOnce (C : Controller n m σ α) : List (Callback α) → Sim n m σ α → Res (Sim n m σ α)
  | [], s => .ok s
  | c :: cs, s => (runCallback C s c).bind (spinOnce C cs)

/-- One round of `while(current_t_ < end_t)`; `env k` are the callbacks due after step `k`. -/
def simRound (C : Controller n m σ α) (plant : α → Vec n α → Vec m α → Vec n α) (simDt endT : α) (env : ℕ → List (Callback α))
    (s : Sim n m σ α) : Sim n m σ α ⊕ Res (Sim n m σ α) :=
  if ltb s.t endT then
    match spinOnce C (env s.k) (simOne C plant simDt s) with
    | .ok s' => .inl s'
    | r => .inr r
  else .inr (.ok s)

/-- The simulation from its initialisation on: time zero, no disturbance, no target. -/
def simLoop (C : Controller n m σ α) (plant : α → Vec n α → Vec m α → Vec n α) (simDt endT : α) (env : ℕ → List (Callback α))
    (x0 : Vec n α) (c0 : σ) : Res (Sim n m σ α) :=
  loopR (simRound C plant simDt endT env)
    { k := 0, t := 0, x := x0, distT := 0, distU := fun _ => 0, target := none, ctrl := c0, log := [] }

end Model

/-- A loop that counts its rounds. -/
theorem loopR_clock {σ : Type} {step : σ → σ ⊕ Res σ} (k : σ → ℕ) (M : ℕ) (I : σ → Prop)
    (hstop : ∀ s, I s → M ≤ k s → step s = .inr (.ok s))
    (hgo : ∀ s, I s → k s < M → ∃ s', step s = .inl s' ∧ k s' = k s + 1 ∧ I s') {s : σ} (h0 : I s) (hk : k s ≤ M) :
    ∃ s', loopR step s = .ok s' ∧ k s' = M ∧ I s' := by
  obtain ⟨j, hj⟩ := Nat.exists_eq_add_of_le hk
  clear hk
  induction j generalizing s with
  | zero =>
    refine ⟨s, ?_, by omega, h0⟩
    unfold loopR
    rw [loopM_inr (hstop s h0 (by omega))]
  | succ j ih =>
    obtain ⟨s', h1, h2, h3⟩ := hgo s h0 (by omega)
    obtain ⟨s'', h4, h5⟩ := ih h3 (by omega)
    refine ⟨s'', ?_, h5⟩
    rw [← h4]
    unfold loopR
    rw [loopM_inl h1]

variable {n m : ℕ} {σ : Type} {C : Controller n m σ ℝ} {plant : ℝ → Vec n ℝ → Vec m ℝ → Vec n ℝ} {simDt endT : ℝ}
  {env : ℕ → List (Callback ℝ)} {x0 : Vec n ℝ} {c0 : σ} {I : σ → Prop} {U : Vec n ℝ → Vec m ℝ → Prop}

/-- Specification of a simulation: equidistant times; the states follow the plant under control input plus disturbance; the control
inputs satisfy `U`; a disturbance was requested at most half a second earlier. -/
structure Simulated (plant : ℝ → Vec n ℝ → Vec m ℝ → Vec n ℝ) (simDt : ℝ) (env : ℕ → List (Callback ℝ)) (U : Vec n ℝ → Vec m ℝ → Prop)
    (x0 : Vec n ℝ) (s : Sim n m σ ℝ) : Prop where
  time : s.t = s.k * simDt
  len : s.log.length = s.k
  lines : ∃ (X : ℕ → Vec n ℝ) (u d : ℕ → Vec m ℝ), X 0 = x0 ∧ s.x = X s.k ∧
    ∀ k, k < s.k → s.log[k]? = some { t := k * simDt, x := X k, u := u k, d := d k } ∧
      X (k + 1) = plant (k * simDt) (X k) (u k + d k) ∧ U (X k) (u k) ∧
      (d k = 0 ∨ ∃ j f, j < k ∧ Callback.dist f ∈ env j ∧ (d k = fun _ => f) ∧ k * simDt ≤ (j + 1 : ℕ) * simDt + 1 / 2)

/-- The disturbance in force. -/
def Pending (simDt : ℝ) (env : ℕ → List (Callback ℝ)) (s : Sim n m σ ℝ) : Prop :=
  s.distU = 0 ∨ ∃ j f, j < s.k ∧ Callback.dist f ∈ env j ∧ (s.distU = fun _ => f) ∧ s.distT = (j + 1 : ℕ) * simDt + 1 / 2

theorem spinOnce_ok (hsolve : ∀ ref t x c, I c → ∃ c', C.solve ref t x c = .ok c' ∧ I c') {j : ℕ} :
    ∀ (cs : List (Callback ℝ)) (s : Sim n m σ ℝ), (∀ c ∈ cs, c ∈ env j) → s.k = j + 1 → s.t = s.k * simDt → I s.ctrl →
      Pending simDt env s →
      ∃ s', spinOnce C cs s = .ok s' ∧ s'.k = s.k ∧ s'.t = s.t ∧ s'.x = s.x ∧ s'.log = s.log ∧ I s'.ctrl ∧ Pending simDt env s'
  | [], s, _, _, _, hI, hp => ⟨s, rfl, rfl, rfl, rfl, rfl, hI, hp⟩
  | c :: cs, s, hc, hk, ht, hI, hp => by
    have hcs : ∀ c ∈ cs, c ∈ env j := fun e he => hc e (List.mem_cons_of_mem _ he)
    cases c with
    | mpc =>
      obtain ⟨c', h1, h2⟩ := hsolve (refPos s.target) s.t s.x s.ctrl hI
      obtain ⟨s', h3⟩ := spinOnce_ok hsolve cs { s with ctrl := c' } hcs hk ht h2 hp
      exact ⟨s', by simpa [spinOnce, runCallback, h1, Res.map] using h3⟩
    | dist f =>
      obtain ⟨s', h3⟩ := spinOnce_ok hsolve cs { s with distU := fun _ => f, distT := s.t + lit (1 / 2) } hcs hk ht hI
        (.inr ⟨j, f, by dsimp only; omega, hc _ List.mem_cons_self, rfl, by dsimp only; rw [ht, hk, lit_real]; push_cast; ring⟩)
      exact ⟨s', by simpa [spinOnce, runCallback] using h3⟩
    | target p =>
      obtain ⟨s', h3⟩ := spinOnce_ok hsolve cs { s with target := some p } hcs hk ht hI hp
      exact ⟨s', by simpa [spinOnce, runCallback] using h3⟩

/-- The simulations end normally after `⌈end_t / sim_dt⌉` steps for every sequence of callbacks, if the controller never fails. -/
theorem simLoop_ok (hdt : 0 < simDt) (h0 : I c0) (hsolve : ∀ ref t x c, I c → ∃ c', C.solve ref t x c = .ok c' ∧ I c')
    (hin : ∀ c x, I c → U x (C.input c x)) :
    ∃ s, simLoop C plant simDt endT env x0 c0 = .ok s ∧ s.k = ⌈endT / simDt⌉₊ ∧ Simulated plant simDt env U x0 s ∧ I s.ctrl := by
  have key := loopR_clock (step := simRound C plant simDt endT env) (fun s => s.k) ⌈endT / simDt⌉₊
    (fun s => Simulated plant simDt env U x0 s ∧ I s.ctrl ∧ Pending simDt env s) ?_ ?_
    (s := { k := 0, t := 0, x := x0, distT := 0, distU := fun _ => 0, target := none, ctrl := c0, log := [] })
    ⟨⟨by simp, rfl, fun _ => x0, fun _ _ => 0, fun _ _ => 0, rfl, rfl, fun k hk => absurd hk (Nat.not_lt_zero k)⟩, h0, .inl rfl⟩
    (Nat.zero_le _)
  · obtain ⟨s, h1, h2, h3, h4, -⟩ := key
    exact ⟨s, h1, h2, h3, h4⟩
  · rintro s ⟨hs, -, -⟩ hk
    unfold simRound
    rw [if_neg]
    rw [ltb_real, hs.time, not_lt, ← div_le_iff₀ hdt]
    exact (Nat.le_ceil _).trans (by exact_mod_cast hk)
  · rintro s ⟨hs, hI, hp⟩ hk
    have hlt : s.t < endT := by
      rw [hs.time, ← lt_div_iff₀ hdt]
      exact Nat.lt_ceil.1 hk
    obtain ⟨X, u, d, hX0, hXk, hl⟩ := hs.lines
    set d' : Vec m ℝ := if ltb s.distT s.t then fun _ => 0 else s.distU with hd'
    have hpd : d' = 0 ∨ ∃ j f, j < s.k ∧ Callback.dist f ∈ env j ∧ (d' = fun _ => f) ∧ s.distT = (j + 1 : ℕ) * simDt + 1 / 2 ∧
        s.k * simDt ≤ (j + 1 : ℕ) * simDt + 1 / 2 := by
      rw [hd']
      split
      · exact .inl rfl
      · rename_i h
        rw [ltb_real, not_lt] at h
        rcases hp with hp | ⟨j, f, h1, h2, h3, h4⟩
        · exact .inl hp
        · refine .inr ⟨j, f, h1, h2, h3, h4, ?_⟩
          rw [← h4, ← hs.time]; exact h
    obtain ⟨s', h1, h2, h3, h4, h5, h6, h7⟩ := spinOnce_ok (env := env) (simDt := simDt) hsolve (env s.k) (simOne C plant simDt s)
      (fun _ h => h) rfl (by simp only [simOne, hs.time]; push_cast; ring) hI (by
        rcases hpd with h | ⟨j, f, h1, h2, h3, h4, -⟩
        · exact .inl h
        · exact .inr ⟨j, f, Nat.lt_succ_of_lt h1, h2, h3, h4⟩)
    refine ⟨s', ?_, h2, ⟨?_, ?_, ?_⟩, h6, h7⟩
    · unfold simRound
      rw [if_pos (by simpa using hlt), h1]
    · rw [h3, h2]; simp only [simOne, hs.time]; push_cast; ring
    · rw [h5, h2]; simp [simOne, hs.len]
    · rw [h2, h4, h5]
      refine ⟨fun k => if k ≤ s.k then X k else (simOne C plant simDt s).x, fun k => if k = s.k then C.input s.ctrl s.x else u k,
        fun k => if k = s.k then d' else d k, by simp [hX0], by simp [simOne], ?_⟩
      intro k hk
      dsimp only
      rcases Nat.lt_succ_iff_lt_or_eq.1 (show k < s.k + 1 from hk) with h' | h'
      · obtain ⟨g1, g2, g3, g4⟩ := hl k h'
        rw [if_pos (by omega), if_neg (by omega), if_neg (by omega), if_pos (by omega)]
        refine ⟨?_, g2, g3, g4⟩
        rw [← g1]
        exact List.getElem?_append_left (by rw [hs.len]; exact h')
      · subst h'
        rw [if_pos le_rfl, if_pos rfl, if_pos rfl, if_neg (by omega), ← hXk]
        refine ⟨?_, by rw [← hs.time]; rfl, hin _ _ hI, ?_⟩
        · simp only [simOne, ← hd']
          rw [List.getElem?_append_right (by rw [hs.len]), hs.len, Nat.sub_self, hs.time]
          rfl
        · rcases hpd with h | ⟨j, f, h1, h2, h3, -, h5⟩
          · exact .inl h
          · exact .inr ⟨j, f, h1, h2, h3, h5⟩

end Nmpc
