import Verif.FMPC.Tight
import Verif.FMPC.Total
import Mathlib.Algebra.Order.Floor.Ring
import Mathlib.Algebra.Order.Archimedean.Real.Basic

/-!
# The receding-horizon loop of the FMPC examples (C68)
-/

set_option linter.unusedSectionVars false

namespace Nmpc.FMPC

open DDP (timeAt)

section Model
variable {α : Type} [Add α] [Sub α] [Mul α] [Div α] [Neg α] [Zero α] [One α] [FOps α]

/-- `Variable(horizon_steps)` followed by `reset(x, u, lambda, s, nu)` for fixed dimensions (FmpcSolver.hpp 32-70). -/
def resetVar (n m p N : ℕ) (x u lam s nu : α) : VarL n α where
  xs := List.replicate (N + 1) fun _ => x
  us := List.replicate N ⟨m, fun _ => u⟩
  lams := List.replicate (N + 1) fun _ => lam
  ss := List.replicate N ⟨p, fun _ => s⟩
  nus := List.replicate N ⟨p, fun _ => nu⟩

/-- What one round writes to the file (TestFmpcOscillator.cpp 183-185), with the status that is tested. -/
structure MpcLine (n m : ℕ) (α : Type) where
  t : α
  x : Vec n α
  u : Vec m α
  status : Status
  last : Trace α

/-- Local variables of the loop, the number of rounds done, the solver and the lines written. -/
structure Mpc (n m : ℕ) (α : Type) where
  k : ℕ
  t : α
  x : Vec n α
  var : VarL n α
  obj : Obj n α
  log : List (MpcLine n m α)

/-- The round after `solve` returned (TestFmpcOscillator.cpp 177-190): `u_list[0]` and `traceDataList().back()` are undefined for empty
lists. -/
def mpcNext {n m : ℕ} (plant : α → Vec n α → Vec m α → Vec n α) (simDt : α) (s : Mpc n m α) (o : Obj n α) (st : Status) :
    Mpc n m α ⊕ Res (Mpc n m α) :=
  match o.var.us[(0 : ℕ)]?, o.trace.getLast? with
  | some ⟨k, u⟩, some tr =>
    if h : k = m then
      .inl { k := s.k + 1, t := s.t + simDt, x := plant s.t s.x (h ▸ u), var := o.var, obj := o
             log := s.log ++ [{ t := s.t, x := s.x, u := h ▸ u, status := st, last := tr }] }
    else .inr .ub
  | _, _ => .inr .ub

/-- One round of `while(current_t < end_t)` (TestFmpcOscillator.cpp 166-191) for a problem with fixed dimensions; `plant` is
`stateEq(t, x, u, sim_dt)`. -/
def mpcStep {n m p : ℕ} (L : GainSolver α) (P : Callbacks n (fun _ : α => m) (fun _ => p)) (plant : α → Vec n α → Vec m α → Vec n α)
    (dt simDt : α) (cfg : Config α) (scr : ℕ → Scratch n (fun _ => m) (fun _ => p) α) (endT : α) (s : Mpc n m α) :
    Mpc n m α ⊕ Res (Mpc n m α) :=
  if ltb s.t endT then
    match solve L P dt cfg s.obj s.t (scr s.k) s.x s.var with
    | (o, .ok st) => mpcNext plant simDt s o st
    | (_, .invalidArgument) => .inr .invalidArgument
    | (_, .runtimeError) => .inr .runtimeError
    | (_, .otherException) => .inr .otherException
    | (_, .ub) => .inr .ub
    | (_, .diverge) => .inr .diverge
  else .inr (.ok s)

/-- The loop from its initialisation on (TestFmpcOscillator.cpp 153-191). -/
def mpcLoop {n m p : ℕ} (L : GainSolver α) (P : Callbacks n (fun _ : α => m) (fun _ => p)) (plant : α → Vec n α → Vec m α → Vec n α)
    (dt simDt : α) (cfg : Config α) (scr : ℕ → Scratch n (fun _ => m) (fun _ => p) α) (endT : α) (o : Obj n α) (t0 : α)
    (x0 : Vec n α) (init : VarL n α) : Res (Mpc n m α) :=
  loopR (mpcStep L P plant dt simDt cfg scr endT) { k := 0, t := t0, x := x0, var := init, obj := o, log := [] }

end Model

section Status
variable {n : ℕ} {md pd : ℝ → ℕ} {L : GainSolver ℝ} {P : Callbacks n md pd} {dt : ℝ} {cfg : Config ℝ} {o : Obj n ℝ}
  {t0 : ℝ} {sc : Scratch n (fun i => md (timeAt t0 dt i)) (fun i => pd (timeAt t0 dt i)) ℝ} {x0 : Vec n ℝ}
  {init : VarL n ℝ}

/-- In exact arithmetic a call with positive slacks and multipliers and `break_if_llt_fails` off reports no error, for every problem. -/
theorem status_real (hbr : cfg.breakIfLltFails = false) (hm : 0 < cfg.maxIter) (hp : cfg.initComplementary = true ∨ init.Pos)
    {o' : Obj n ℝ} {st : Status} (h : solve L P dt cfg o t0 sc x0 init = (o', .ok st)) :
    st = .succeeded ∨ st = .maxIterationReached := by
  have h28 := (C28_positive hp h).2
  have h32 := C32_status h
  obtain ⟨v, w, hv, hck, hr, rfl⟩ := solve_ok h
  obtain ⟨st', ho, hst, _⟩ := runSolver_ok hr
  have key : st' ≠ .errorInForward ∧ st' ≠ .errorInBackward := by
    refine optLoop_rule (fun it st w => st ≠ .errorInForward ∧ st ≠ .errorInBackward)
      (fun st w => st ≠ .errorInForward ∧ st ≠ .errorInBackward) ⟨by simp, by simp⟩ ?_ (fun _ _ h => h) ho
    intro it st w w' st' _ _ _ hp
    have : st' ≠ .errorInForward ∧ st' ≠ .errorInBackward := by
      constructor
      · rintro rfl
        have := (C60_forward hp).2.2.1
        apply this
        rw [← Var.containsNaN_iff]
        simp [Var.containsNaN, vecBad]
      · rintro rfl
        obtain ⟨-, ⟨i, -, h⟩ | h⟩ := C39_partial (by simp) hbr hp
        · simp [Coeff.containsNaN, vecBad, matBad] at h
        · simp [TCoeff.computedNaN, vecBad, matBad] at h
    split <;> exact this
  have h1 : st ≠ .uninitialized := fun h => by
    have := h32.2.1.1 h; omega
  by_cases hc : st' = .iterationContinued
  · rw [if_pos hc] at hst; exact .inr hst
  · rw [if_neg hc] at hst
    subst hst
    cases st with
    | uninitialized => exact absurd rfl h1
    | succeeded => exact .inl rfl
    | errorInForward => exact absurd rfl key.1
    | errorInBackward => exact absurd rfl key.2
    | errorInUpdate => exact absurd rfl h28
    | maxIterationReached => exact .inr rfl
    | iterationContinued => exact absurd rfl hc

/-- The lists of `variable()` after a call that returned. -/
theorem solve_shape {o' : Obj n ℝ} {st : Status} (h : solve L P dt cfg o t0 sc x0 init = (o', .ok st)) :
    LengthsOk cfg.horizon o'.var ∧ DimsOk md pd t0 dt o'.var := by
  obtain ⟨v, w, hv, hck, hr, rfl⟩ := solve_ok h
  obtain ⟨hl, -, -⟩ := (checkVariable_iff (md := md) (pd := pd) (t0 := t0) (dt := dt) (horizon := cfg.horizon) v).2.2.1 hck
  have hN := hl.2.1
  refine ⟨?_, ?_, ?_, ?_⟩
  · refine ⟨?_, ?_, ?_, ?_, ?_⟩ <;> simp [Var.out] <;> omega
  all_goals
    intro i hi
    simp only [Var.out, List.getElem_map, List.getElem_range]

end Status

variable {n m p : ℕ} {L : GainSolver ℝ} {P : Callbacks n (fun _ : ℝ => m) (fun _ => p)} {plant : ℝ → Vec n ℝ → Vec m ℝ → Vec n ℝ}
  {dt simDt : ℝ} {cfg : Config ℝ} {scr : ℕ → Scratch n (fun _ => m) (fun _ => p) ℝ} {endT t0 : ℝ} {o : Obj n ℝ} {x0 : Vec n ℝ}
  {init : VarL n ℝ}

/-- Specification of the closed loop: times, states and inputs of the rounds so far; no error status; positive slacks and multipliers. -/
structure ClosedLoop (plant : ℝ → Vec n ℝ → Vec m ℝ → Vec n ℝ) (simDt t0 : ℝ) (x0 : Vec n ℝ) (kktThre : ℝ) (s : Mpc n m ℝ) : Prop where
  time : s.t = t0 + s.k * simDt
  len : s.log.length = s.k
  lines : ∃ (X : ℕ → Vec n ℝ) (U : ℕ → Vec m ℝ), X 0 = x0 ∧
    (∀ k, k < s.k → X (k + 1) = plant (t0 + k * simDt) (X k) (U k)) ∧
    (∀ k, k < s.k → ∃ e, s.log[k]? = some e ∧ e.t = t0 + k * simDt ∧ e.x = X k ∧ e.u = U k ∧
      (e.status = .succeeded ∧ e.last.kktError ≤ kktThre ∨ e.status = .maxIterationReached ∧ kktThre < e.last.kktError)) ∧ s.x = X s.k
  pos : s.var.Pos

/-- Warm start of the right shape. -/
structure WarmOk (m p : ℕ) (N : ℤ) (v : VarL n ℝ) : Prop where
  lengths : LengthsOk N v
  us : ∀ q ∈ v.us, q.1 = m
  ss : ∀ q ∈ v.ss, q.1 = p
  nus : ∀ q ∈ v.nus, q.1 = p

theorem WarmOk.dims {N : ℤ} {v : VarL n ℝ} (h : WarmOk m p N v) (t dt : ℝ) : DimsOk (fun _ => m) (fun _ => p) t dt v :=
  ⟨fun _ hi => h.us _ (List.getElem_mem hi), fun _ hi => h.ss _ (List.getElem_mem hi), fun _ hi => h.nus _ (List.getElem_mem hi)⟩

theorem warmOk_of {N : ℤ} {v : VarL n ℝ} {t dt : ℝ} (hl : LengthsOk N v) (h : DimsOk (fun _ => m) (fun _ => p) t dt v) :
    WarmOk m p N v := by
  refine ⟨hl, ?_, ?_, ?_⟩
  all_goals
    intro q hq
    obtain ⟨i, hi, rfl⟩ := List.getElem_of_mem hq
  · exact h.1 i hi
  · exact h.2.1 i hi
  · exact h.2.2 i hi

theorem warmOk_reset (N : ℕ) (x u lam s nu : ℝ) : WarmOk m p N (resetVar n m p N x u lam s nu) := by
  refine ⟨?_, ?_, ?_, ?_⟩
  · simp [LengthsOk, resetVar]
  all_goals
    intro q hq
    rw [(List.mem_replicate.1 hq).2]

theorem pos_reset (N : ℕ) (x u lam : ℝ) {s nu : ℝ} (hs : 0 < s) (hn : 0 < nu) : (resetVar n m p N x u lam s nu).Pos := by
  constructor
  all_goals
    intro q hq j
    simp only [resetVar] at hq
    obtain ⟨-, rfl⟩ := List.mem_replicate.1 hq
    assumption

theorem mpcStep_ok (hN : 0 < cfg.horizon) (hm : 0 < cfg.maxIter) (hbr : cfg.breakIfLltFails = false)
    (hne : NoEmpty cfg.horizon.toNat n (fun _ => p) cfg) {s : Mpc n m ℝ}
    (h : ClosedLoop plant simDt t0 x0 cfg.kktErrorThre s) (hw : WarmOk m p cfg.horizon s.var) (ht : s.t < endT) :
    ∃ s', mpcStep L P plant dt simDt cfg scr endT s = .inl s' ∧ s'.k = s.k + 1 ∧
      ClosedLoop plant simDt t0 x0 cfg.kktErrorThre s' ∧ WarmOk m p cfg.horizon s'.var := by
  have hnn : NonNeg s.var := ⟨fun e he j => by simpa using (h.pos.1 e he j).le, fun e he j => by simpa using (h.pos.2 e he j).le⟩
  obtain ⟨o', st, hq⟩ := C58_defined (L := L) (P := P) (dt := dt) (o := s.obj) (t0 := s.t) (sc := scr s.k) (x0 := s.x)
    hw.lengths (hw.dims s.t dt).1 (.inr ⟨hw.dims s.t dt, hnn⟩) hne (.inl hm)
  have hpos := (C28_positive (.inr h.pos) hq).1
  have hst := status_real hbr hm (.inr h.pos) hq
  have hsh := solve_shape hq
  have h32 := C32_status hq
  have hw' := warmOk_of hsh.1 hsh.2
  have hlen : 0 < o'.trace.length := h32.2.2.2.2.1 hm
  obtain ⟨tr, htr⟩ : ∃ tr, o'.trace.getLast? = some tr :=
    ⟨_, List.getLast?_eq_some_getLast (List.ne_nil_of_length_pos hlen)⟩
  have hus : 0 < o'.var.us.length := by have := hsh.1.2.1; omega
  obtain ⟨u, hu⟩ : ∃ u : Vec m ℝ, o'.var.us[0]? = some ⟨m, u⟩ := by
    rw [List.getElem?_eq_getElem hus]
    have := hw'.us _ (List.getElem_mem hus)
    generalize o'.var.us[0] = q at this
    obtain ⟨k, u⟩ := q
    dsimp only at this
    subst this
    exact ⟨u, rfl⟩
  obtain ⟨X, U, hX0, hX, hlog, hxk⟩ := h.lines
  have hlast : st = .succeeded ∧ tr.kktError ≤ cfg.kktErrorThre ∨ st = .maxIterationReached ∧ cfg.kktErrorThre < tr.kktError := by
    have hi := h32.2.2.2.2.2.2 (o'.trace.length - 1) (by omega)
    have he : o'.trace[o'.trace.length - 1] = tr := by
      rw [List.getLast?_eq_getElem?, List.getElem?_eq_getElem (by omega)] at htr
      exact Option.some.inj htr
    rw [he, leb_real] at hi
    rcases hst with rfl | rfl
    · exact .inl ⟨rfl, hi.2 ⟨rfl, by omega⟩⟩
    · right
      refine ⟨rfl, not_le.1 fun hle => ?_⟩
      have := (hi.1 hle).1
      cases this
  refine ⟨{ k := s.k + 1, t := s.t + simDt, x := plant s.t s.x u, var := o'.var, obj := o'
            log := s.log ++ [{ t := s.t, x := s.x, u := u, status := st, last := tr }] }, ?_, rfl,
          ⟨?_, by simp [h.len], ?_, hpos⟩, hw'⟩
  · unfold mpcStep
    rw [if_pos (by simpa using ht), hq]
    simp only [mpcNext, hu, htr, dite_true]
  · simp only [h.time]; push_cast; ring
  · refine ⟨fun k => if k ≤ s.k then X k else plant s.t s.x u, fun k => if k = s.k then u else U k, by simp [hX0], ?_, ?_, ?_⟩
    · intro k hk
      dsimp only at hk ⊢
      rcases Nat.lt_succ_iff_lt_or_eq.1 hk with h' | h'
      · rw [if_pos (by omega), if_pos (by omega), if_neg (by omega), hX k h']
      · subst h'
        rw [if_neg (by omega), if_pos le_rfl, if_pos rfl, hxk, h.time]
    · intro k hk
      dsimp only at hk ⊢
      rcases Nat.lt_succ_iff_lt_or_eq.1 hk with h' | h'
      · rw [List.getElem?_append_left (by rw [h.len]; exact h'), if_pos (by omega), if_neg (by omega)]
        exact hlog k h'
      · subst h'
        rw [List.getElem?_append_right (by rw [h.len]), h.len, if_pos le_rfl, if_pos rfl, ← hxk]
        exact ⟨_, by rw [Nat.sub_self]; rfl, h.time, rfl, rfl, hlast⟩
    · simp

/-- **C68** The receding-horizon loop of the FMPC examples ends normally after `⌈(end_t - t0) / sim_dt⌉` rounds, for every problem
with fixed dimensions, every plant and whatever the factorisations do: no exception and no undefined access; every status is
`Succeeded` or `MaxIterationReached` (what the test expects), according to the last recorded KKT error; slacks and multipliers stay
positive; the states visited follow the plant under the first input of each plan. -/
theorem C68_loop (hdt : 0 < simDt) (hN : 0 < cfg.horizon) (hm : 0 < cfg.maxIter) (hbr : cfg.breakIfLltFails = false)
    (hne : NoEmpty cfg.horizon.toNat n (fun _ => p) cfg) (hw : WarmOk m p cfg.horizon init) (hp : init.Pos) :
    ∃ s, mpcLoop L P plant dt simDt cfg scr endT o t0 x0 init = .ok s ∧ s.k = ⌈(endT - t0) / simDt⌉₊ ∧
      ClosedLoop plant simDt t0 x0 cfg.kktErrorThre s := by
  have h0 : ClosedLoop plant simDt t0 x0 cfg.kktErrorThre { k := 0, t := t0, x := x0, var := init, obj := o, log := [] } :=
    ⟨by simp, rfl, ⟨fun _ => x0, fun _ _ => 0, rfl, by simp, by simp, rfl⟩, hp⟩
  have key : ∀ j (s : Mpc n m ℝ), ClosedLoop plant simDt t0 x0 cfg.kktErrorThre s → WarmOk m p cfg.horizon s.var →
      s.k + j = ⌈(endT - t0) / simDt⌉₊ →
      ∃ s', loopR (mpcStep L P plant dt simDt cfg scr endT) s = .ok s' ∧ s'.k = ⌈(endT - t0) / simDt⌉₊ ∧
        ClosedLoop plant simDt t0 x0 cfg.kktErrorThre s' := by
    intro j
    induction j with
    | zero =>
      intro s hs' _ hk
      refine ⟨s, ?_, hk, hs'⟩
      have hle : (endT - t0) / simDt ≤ s.k := by
        rw [add_zero] at hk; rw [hk]; exact Nat.le_ceil _
      rw [div_le_iff₀ hdt] at hle
      have : loopM (mpcStep L P plant dt simDt cfg scr endT) s = some (.ok s) := by
        apply loopM_inr
        unfold mpcStep
        rw [if_neg]
        rw [ltb_real, hs'.time]
        linarith
      unfold loopR
      rw [this]
    | succ j ih =>
      intro s hs' hw' hk
      have hlt : (s.k : ℝ) < (endT - t0) / simDt := Nat.lt_ceil.1 (by omega)
      rw [lt_div_iff₀ hdt] at hlt
      obtain ⟨s', h1, h2, h3, h4⟩ := mpcStep_ok (L := L) (P := P) (dt := dt) (scr := scr) (endT := endT) hN hm hbr hne hs' hw'
        (by rw [hs'.time]; linarith)
      obtain ⟨s'', h5, h6⟩ := ih s' h3 h4 (by omega)
      refine ⟨s'', ?_, h6⟩
      rw [← h5]
      unfold loopR
      rw [loopM_inl h1]
  exact key _ _ h0 hw (Nat.zero_add _)

end Nmpc.FMPC
